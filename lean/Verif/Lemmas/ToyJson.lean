/-
Instances of the contracts of the JSON codec and of the url crate, so that statements which assume
them are not vacuous.
-/
import Verif.Lemmas.JsonText
import Verif.Lemmas.ToyFloat

namespace Htrpc.ToyJson

/-- The text of a document, with numbers that are not integers as bit patterns. -/
def enc (j : Json) : Bytes := letI := toyFloat; utf8 (JsonCodec.render true j)

/-- A lawful JSON codec: `JsonCodec` with these numbers. -/
@[instance_reducible] def toyJson : JsonText := letI := toyFloat; JsonCodec.jsonText

/-- The same for URLs: any text is one. -/
@[instance_reducible] def toyUrl : UrlText where
  Url := Str
  text := id
  parse := some
  parse_text _ := rfl

end Htrpc.ToyJson
