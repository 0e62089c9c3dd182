import Verif.Lemmas.Struct
import Verif.Model.ReqDe
import Verif.Model.RespDe

namespace Htrpc
open Spec

/-- One fixed part of a message: read if the struct declares it, skipped otherwise. -/
def readPart (fs : List (Str × Ty)) (key : Str) (rd : Ty → Res Val) (skip : Res Unit)
    (acc : List (Str × Val)) : Res (List (Str × Val)) :=
  match fs.lookup key with
  | some t => do .ok (acc ++ [(key, ← rd t)])
  | none => do let _ ← skip; .ok acc

section
variable [FloatText]

omit [FloatText] in
theorem map_lookup {α β : Type} (f : α → β) (fs : List (Str × α)) (k : Str) :
    (fs.map fun x => (x.1, f x.2)).lookup k = (fs.lookup k).map f := by
  induction fs with
  | nil => rfl
  | cons x fs ih =>
    obtain ⟨n, t⟩ := x
    rw [List.map_cons, List.lookup_cons, List.lookup_cons]
    cases k == n <;> simp [ih]

/-- The struct of a request is read part by part. -/
theorem reqDe_struct (i : ReqInput) (fs : List (Str × Ty)) :
    ReqDe.de i (.struct fs) = (do
      let a ← readPart fs "path".toList (fun t => dePath i.entry t i.target.segs)
        (do let _ ← PathDe.new i.entry i.target.segs; .ok ()) []
      let a ← readPart fs "query".toList (fun t => deQuery t i.target.query) (.ok ()) a
      let a ← readPart fs "header".toList (fun t => deHeaders t i.headers)
        (ignoreHeaders i.headers) a
      let vs ← assemble a fs
      .ok (.struct vs)) := by
  have l1 (v : Val) : List.lookup "query".toList ([] ++ [("path".toList, v)]) = none := rfl
  have l2 (v : Val) : List.lookup "header".toList ([] ++ [("path".toList, v)]) = none := rfl
  have l3 (v : Val) : List.lookup "header".toList ([] ++ [("query".toList, v)]) = none := rfl
  have l4 (v w : Val) : List.lookup "header".toList
    ([] ++ [("path".toList, v)] ++ [("query".toList, w)]) = none := rfl
  rw [ReqDe.de]
  simp only [visitStruct, ReqDe.nextKey, ReqDe.next, Res.bind_ok, map_lookup, readPart]
  cases hp : fs.lookup "path".toList with
  | none =>
    simp only [Option.map_none, ReqDe.ignore]
    cases PathDe.new i.entry i.target.segs with
    | err => rfl
    | panic => rfl
    | ok _ =>
      simp only [Res.bind_ok]
      cases hq : fs.lookup "query".toList with
      | none =>
        simp only [Option.map_none, Res.bind_ok]
        cases hh : fs.lookup "header".toList with
        | none =>
          simp only [Option.map_none]
          cases ignoreHeaders i.headers <;> rfl
        | some t =>
          simp only [Option.map_some, ReqDe.value, List.lookup_nil]
          cases deHeaders t i.headers <;> rfl
      | some t =>
        simp only [Option.map_some, ReqDe.value, List.lookup_nil]
        cases deQuery t i.target.query with
        | err => rfl
        | panic => rfl
        | ok v =>
          simp only [Res.bind_ok]
          cases hh : fs.lookup "header".toList with
          | none =>
            simp only [Option.map_none]
            cases ignoreHeaders i.headers <;> rfl
          | some t =>
            simp only [Option.map_some, ReqDe.value, l3]
            cases deHeaders t i.headers <;> rfl
  | some t =>
    simp only [Option.map_some, ReqDe.value, List.lookup_nil]
    cases dePath i.entry t i.target.segs with
    | err => rfl
    | panic => rfl
    | ok _ =>
      simp only [Res.bind_ok]
      cases hq : fs.lookup "query".toList with
      | none =>
        simp only [Option.map_none, ReqDe.ignore, Res.bind_ok]
        cases hh : fs.lookup "header".toList with
        | none =>
          simp only [Option.map_none]
          cases ignoreHeaders i.headers <;> rfl
        | some t =>
          simp only [Option.map_some, ReqDe.value, l2]
          cases deHeaders t i.headers <;> rfl
      | some t =>
        simp only [Option.map_some, ReqDe.value, l1]
        cases deQuery t i.target.query with
        | err => rfl
        | panic => rfl
        | ok v =>
          simp only [Res.bind_ok]
          cases hh : fs.lookup "header".toList with
          | none =>
            simp only [Option.map_none, ReqDe.ignore]
            cases ignoreHeaders i.headers <;> rfl
          | some t =>
            simp only [Option.map_some, ReqDe.value, l4]
            cases deHeaders t i.headers <;> rfl

/-- The struct of a response is read part by part. -/
theorem respDe_struct (i : RespInput) (fs : List (Str × Ty)) :
    RespDe.deStruct i fs .init = (do
      let a ← readPart fs "status".toList (fun t => deU16 i.code t) (.ok ()) []
      let a ← readPart fs "header".toList (fun t => deHeaders t i.headers)
        (ignoreHeaders i.headers) a
      assemble a fs) := by
  have l1 (v : Val) : List.lookup "header".toList ([] ++ [("status".toList, v)]) = none := rfl
  rw [RespDe.deStruct]
  simp only [visitStruct, RespDe.nextKey, RespDe.next, Res.bind_ok, map_lookup, readPart]
  cases hp : fs.lookup "status".toList with
  | none =>
    simp only [Option.map_none, RespDe.ignore, Res.bind_ok]
    cases hh : fs.lookup "header".toList with
    | none =>
      simp only [Option.map_none]
      cases ignoreHeaders i.headers <;> rfl
    | some t =>
      simp only [Option.map_some, RespDe.value, List.lookup_nil]
      cases deHeaders t i.headers <;> rfl
  | some t =>
    simp only [Option.map_some, RespDe.value, List.lookup_nil]
    cases deU16 i.code t with
    | err => rfl
    | panic => rfl
    | ok v =>
      simp only [Res.bind_ok]
      cases hh : fs.lookup "header".toList with
      | none =>
        simp only [Option.map_none, RespDe.ignore]
        cases ignoreHeaders i.headers <;> rfl
      | some t =>
        simp only [Option.map_some, RespDe.value, l1]
        cases deHeaders t i.headers <;> rfl

/-- The struct of a response variant is read without its status. -/
theorem respDe_variant (i : RespInput) (fs : List (Str × Ty)) :
    RespDe.deStruct i fs .status = (do
      let a ← readPart fs "header".toList (fun t => deHeaders t i.headers)
        (ignoreHeaders i.headers) []
      assemble a fs) := by
  rw [RespDe.deStruct]
  simp only [visitStruct, RespDe.nextKey, RespDe.next, Res.bind_ok, map_lookup, readPart]
  cases hh : fs.lookup "header".toList with
  | none =>
    simp only [Option.map_none, RespDe.ignore]
    cases ignoreHeaders i.headers <;> rfl
  | some t =>
    simp only [Option.map_some, RespDe.value, List.lookup_nil]
    cases deHeaders t i.headers <;> rfl

end

end Htrpc
