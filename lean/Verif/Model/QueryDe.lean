/-
src/deserializers/url_query.rs: `UrlQueryDeserializer`.
-/
import Verif.Model.Visit
import Verif.Model.Url

namespace Htrpc

/-- src/deserializers/url_query.rs:11-26: `Phase` (`none` is `Phase::Key`, `some v` is
`Phase::Value(v)`) and `UrlQueryDeserializer`; `pairs` are the pairs not yet taken. -/
structure QueryDe where
  inMap : Bool
  phase : Option Str
  pairs : List (Str × Str)
deriving DecidableEq, Repr

namespace QueryDe

/-- src/deserializers/url_query.rs:29-35 `new`. -/
def new (pairs : List (Str × Str)) : QueryDe := { inMap := false, phase := none, pairs }

/-- src/deserializers/url_query.rs:40-49 `next_str`. -/
def nextStr (st : QueryDe) : Res (Str × QueryDe) :=
  match st.phase with
  | none =>
    match st.pairs with
    | [] => .err .invalid
    | (k, v) :: pairs => .ok (k, { st with phase := some v, pairs })
  | some v => .ok (v, { st with phase := none })

/-- A value made from the next text by `f`. -/
def scalar (f : Str → Option Val) (st : QueryDe) : Res (Val × QueryDe) := do
  let (s, st) ← nextStr st
  let v ← Res.ofOption (f s)
  .ok (v, st)

/-- src/deserializers/url_query.rs:258-265 `deserialize_map` before visiting. -/
def enterMap (st : QueryDe) : Res QueryDe := do
  Res.check (!st.inMap)
  .ok { st with inMap := true }

/-- src/deserializers/url_query.rs:307-317 `next_key_seed` for an identifier (291-296). -/
def nextKey (st : QueryDe) : Res (Option (Str × QueryDe)) :=
  if st.pairs = [] then .ok none
  else do
    let (s, st) ← nextStr st
    .ok (some (s, st))

/-- src/deserializers/url_query.rs:298-303 `deserialize_ignored_any`: nothing is consumed. -/
def ignore (st : QueryDe) : Res QueryDe := .ok st

/-- Bound on the number of texts left. -/
def fuel (st : QueryDe) : Nat := 2 * st.pairs.length + 2

variable [FloatText]

mutual
/-- src/deserializers/url_query.rs:51-304, driven by the type's `Deserialize` implementation. -/
def de : Ty → Dec QueryDe
  -- lines 60-67, 327-333
  | .bool => scalar fun s => (parseBool s).map .bool
  -- lines 69-139
  | .int t => scalar fun s => (parseInt t s).map (.int t)
  -- lines 141-157
  | .f32 => scalar fun s => (FloatText.parse32 s).map .f32
  | .f64 => scalar fun s => (FloatText.parse64 s).map .f64
  -- lines 159-164
  | .char => fun _ => .err .invalid
  -- lines 166-182
  | .str => scalar fun s => some (.str s)
  -- lines 184-200
  | .bytes => scalar fun s => some (.bytes (utf8 s))
  -- lines 202-207
  | .option t => fun st => do
    let (v, st) ← de t st
    .ok (.some v, st)
  -- lines 209-223
  | .unit => scalar fun s => if s = [] then some .unit else none
  | .unitStruct n => scalar fun s => if s = [] then some (.unitStruct n) else none
  -- lines 225-230
  | .newtypeStruct t => fun st => do
    let (v, st) ← de t st
    .ok (.newtypeStruct v, st)
  -- lines 232-256
  | .seq _ => fun _ => .err .invalid
  | .tuple _ => fun _ => .err .invalid
  | .tupleStruct _ => fun _ => .err .invalid
  -- lines 258-277, 305-325
  | .map k v => fun st => do
    let st ← enterMap st
    let (kvs, st) ← visitMap (fun st => decide (st.pairs = [])) (de k) (de v) st.fuel [] st
    .ok (.map kvs, st)
  | .struct fs => fun st => do
    let st ← enterMap st
    let (acc, st) ← visitStruct nextKey ignore (deFields fs) st.fuel [] st
    let vs ← assemble acc fs
    .ok (.struct vs, st)
  -- lines 279-289
  | .enum _ => fun _ => .err .invalid
/-- The decoders of the fields. -/
def deFields : List (Str × Ty) → List (Str × Dec QueryDe)
  | [] => []
  | (n, t) :: fs => (n, de t) :: deFields fs
end

end QueryDe

/-- Decode the query of a request (src/deserializers/rpc_request.rs:273-277): `Url::query_pairs`
of an absent query are no pairs. -/
def deQuery [FloatText] (t : Ty) (query : Option Str) : Res Val := do
  let (v, _) ← QueryDe.de t (QueryDe.new (formParse (query.getD [])))
  .ok v

end Htrpc
