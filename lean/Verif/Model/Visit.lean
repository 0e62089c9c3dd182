/-
Visitors of serde 1 / serde_derive: contracts, not code of htrpc.

A derived `Deserialize` for a struct calls `deserialize_struct`, whose visitor runs `visit_map`;
map types run a similar loop.  Both are written here over an abstract `MapAccess`.
The loops carry fuel; running out of it is modelled as a panic, and the theorems that decoding
never panics show that the fuel given by the deserializers always suffices.
-/
import Verif.Model.ValEq

namespace Htrpc

/-- Deserialization of one value from the state of a deserializer. -/
abbrev Dec (σ : Type) := σ → Res (Val × σ)

/-- serde_derive, `visit_map` of a struct: read a key as identifier; a declared field must not
have been seen before, its value is decoded; the value of an unknown key is skipped with
`IgnoredAny`.  Returns the fields seen, in order of arrival.

`nextKey` is `MapAccess::next_key` for an identifier, `ignore` is
`MapAccess::next_value::<IgnoredAny>`. -/
def visitStruct {σ : Type} (nextKey : σ → Res (Option (Str × σ))) (ignore : σ → Res σ)
    (fields : List (Str × Dec σ)) :
    Nat → List (Str × Val) → σ → Res (List (Str × Val) × σ)
  | 0, _, _ => .panic
  | fuel + 1, acc, st => do
    match ← nextKey st with
    | none => .ok (acc, st)
    | some (key, st) =>
      match fields.lookup key with
      | some dec =>
        match acc.lookup key with
        | some _ => .err .invalid
        | none => do
          let (v, st) ← dec st
          visitStruct nextKey ignore fields fuel (acc ++ [(key, v)]) st
      | none => do
        let st ← ignore st
        visitStruct nextKey ignore fields fuel acc st

/-- serde's `missing_field`: an absent field is `None` for an option and an error otherwise. -/
def missingField : Ty → Res Val
  | .option _ => .ok .none
  | _ => .err .invalid

/-- serde_derive: assemble the struct after the loop, in declaration order. -/
def assemble (acc : List (Str × Val)) : List (Str × Ty) → Res (List (Str × Val))
  | [] => .ok []
  | (n, t) :: ts => do
    let v ← match acc.lookup n with
      | some v => .ok v
      | none => missingField t
    let vs ← assemble acc ts
    .ok ((n, v) :: vs)

/-- `insert` of a map type (`HashMap`, `BTreeMap`): a key that is already there keeps its place and
gets the new value.  The order of the entries, which is that of the map, is left out: here it is the
order of first arrival. -/
def mapInsert (k v : Val) : List (Val × Val) → List (Val × Val)
  | [] => [(k, v)]
  | (k', v') :: m => if k' = k then (k', v) :: m else (k', v') :: mapInsert k v m

/-- `visit_map` of a map type: entries are inserted as they arrive. -/
def visitMap {σ : Type} (atEnd : σ → Bool) (key val : Dec σ) :
    Nat → List (Val × Val) → σ → Res (List (Val × Val) × σ)
  | 0, _, _ => .panic
  | fuel + 1, acc, st =>
    if atEnd st then .ok (acc, st)
    else do
      let (k, st) ← key st
      let (v, st) ← val st
      visitMap atEnd key val fuel (mapInsert k v acc) st

/-- `visit_seq` of `Vec`: elements until `next_element` says `None`. -/
def visitSeq {σ : Type} (next : σ → Res (Option Val × σ)) :
    Nat → List Val → σ → Res (List Val × σ)
  | 0, _, _ => .panic
  | fuel + 1, acc, st => do
    match ← next st with
    | (none, st) => .ok (acc, st)
    | (some v, st) => visitSeq next fuel (acc ++ [v]) st

end Htrpc
