/-
The tests that are part of the code itself, run on the model: the unit tests in the modules and the examples
in the documentation.  They pin the model to outputs that the authors have written down; they prove nothing
else.  URLs are given without `http://localhost`, because htrpc looks at the path and the query only.
-/
import Verif.Lemmas.ToyJson
import Verif.Model.FloatStd
import Verif.Model.PathSer
import Verif.Model.PathDe
import Verif.Model.QuerySer
import Verif.Model.QueryDe
import Verif.Model.Problem
import Verif.Model.ValEq

namespace Htrpc
namespace OwnTests

attribute [local instance] stdFloatText ToyJson.toyUrl

/-- The entry point `htrpc_entry_point!["foo", _, "baz", _]`. -/
def entry : EntryPoint := [.val "foo".toList, .var, .val "baz".toList, .var]

/-- Nothing is left to it here. -/
def oracle : UrlOracle := ⟨fun _ => none⟩

/-- src/serializers/url_path.rs:261-274. -/
example : serPath entry "/".toList (.tupleStruct [.str "hello world".toList, .int .u64 3]) =
    .ok "/foo/hello%20world/baz/3".toList := by decide +kernel

/-- src/deserializers/url_path.rs:370-382. -/
example : (do
      let t ← parseRelativeUrl oracle "/foo/hello%20world/baz/3".toList
      dePath entry (.tupleStruct [.str, .int .u64]) t.segs) =
    .ok (.tupleStruct [.str "hello world".toList, .int .u64 3]) := by decide +kernel

/-- src/serializers/url_query.rs:239-249. -/
example : serQuery (.map [(.str "bar".toList, .str "baz qux".toList), (.str "foo".toList, .str "3".toList)]) =
    .ok "bar=baz+qux&foo=3".toList := by decide +kernel

/-- src/serializers/url_query.rs:251-268. -/
example : serQuery (.struct [("foo".toList, .none), ("bar".toList, .str "baz qux".toList)]) =
    .ok "bar=baz+qux".toList := by decide +kernel

/-- src/serializers/url_query.rs:270-280. -/
example : serQuery (.struct [("foo".toList, .some (.int .u64 3)), ("bar".toList, .str "baz qux".toList)]) =
    .ok "foo=3&bar=baz+qux".toList := by decide +kernel

/-- src/serializers/url_query.rs:282-301. -/
example : serQuery (.structVariant "Bbb".toList
      [("foo".toList, .int .u64 3), ("bar".toList, .str "baz qux".toList)]) =
    .ok "foo=3&bar=baz+qux".toList := by decide +kernel

/-- The type `Params` of src/deserializers/url_query.rs:343-347. -/
def params : Ty := .struct [("foo".toList, .option (.int .u64)), ("bar".toList, .str)]

/-- src/deserializers/url_query.rs:349-355. -/
example : (do
      let t ← parseRelativeUrl oracle "/?bar=baz+qux".toList
      deQuery params t.query) =
    .ok (.struct [("foo".toList, .none), ("bar".toList, .str "baz qux".toList)]) := by decide +kernel

/-- src/deserializers/url_query.rs:357-363. -/
example : (do
      let t ← parseRelativeUrl oracle "/?foo=10&bar=baz+qux".toList
      deQuery params t.query) =
    .ok (.struct [("foo".toList, .some (.int .u64 10)), ("bar".toList, .str "baz qux".toList)]) := by decide +kernel

/-- src/rfc7807.rs:83-92; the phrase comes from miasht. -/
example (phrase : Status → Str) (h : phrase .notFound = "Not Found".toList) :
    JsonCodec.render true (Problem.newAboutBlank phrase .notFound).toJson =
      "{\n  \"type\": \"about:blank\",\n  \"title\": \"Not Found\",\n  \"status\": 404\n}".toList := by
  rw [Problem.newAboutBlank, h]
  decide +kernel

/-- src/rfc7807.rs:106-116; the description of the error comes from trackable. -/
example : JsonCodec.render true (Problem.newTrackable .notFound
      "Other (cause; something wrong)\nHISTORY:\n".toList none (some [])).toJson =
    ("{\n  \"type\": \"https://docs.rs/htrpc/0.0.2/htrpc/rfc7807/struct.TrackableProblem.html\",\n" ++
     "  \"title\": \"Other (cause; something wrong)\\nHISTORY:\\n\",\n  \"status\": 404,\n" ++
     "  \"history\": []\n}").toList := by
  decide +kernel

end OwnTests
end Htrpc
