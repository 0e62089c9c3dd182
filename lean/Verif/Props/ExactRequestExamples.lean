/-
Requests that arrive and requests that do not (C108).
-/
import Verif.Props.ExactRequest

namespace Htrpc
open Spec

namespace ExactExamples

theorem noNaN_str (s : Str) : ¬ HasNaN (.tuple [.str s]) := by
  intro h
  generalize he : Val.tuple [.str s] = v at h
  cases h with
  | here h => subst he; cases h
  | tuple hm h =>
    cases he
    rw [List.mem_singleton.1 hm] at h
    generalize he : Val.str s = v at h
    cases h with
    | here h => subst he; cases h
    | _ => cases he
  | _ => cases he

/-- The user with the name `s` at `/users/_` is received if and only if `s` is in ASCII without tabs and
line breaks, and neither `.` nor `..`. -/
theorem user_intact [FloatText] (s : Str) :
    PathIntact exReqEntry (some (.tuple [.str s])) (some (.tuple [.str])) ↔
      Ascii s ∧ NoTabNl s ∧ ¬ Dots s := by
  constructor
  · rintro ⟨ss, h, hc⟩
    cases h with
    | args h1 h2 h3 h4 h5 h6 =>
      cases h1
      cases h3 with
      | cons h3 h7 =>
        cases h3
        cases h7
        exact ⟨h5 s (List.mem_cons_self ..), h6 s (List.mem_cons_self ..),
          hc.2.1 s (by simp [exReqEntry, instantiate])⟩
  · rintro ⟨h1, h2, h3⟩
    refine ⟨[s], .args (.tuple _) (.tuple (.cons (.str _) .nil)) (.cons (.str _) .nil) rfl
      (fun x hx => List.mem_singleton.1 hx ▸ h1) (fun x hx => List.mem_singleton.1 hx ▸ h2),
      by simp [exReqEntry, instantiate], ?_, .inr ⟨"users".toList, rfl, by decide⟩⟩
    intro x hx
    rcases List.mem_cons.1 hx with rfl | hx
    · decide
    · rw [List.mem_singleton.1 hx]; exact h3

theorem exTy_ok : RequestTy (.newtypeStruct (.struct (requestFields (some (.tuple [.str])) none none))) := by
  refine ⟨fun ts h => ?_, fun ts u h hl => ?_, fun ts u h hl => ?_⟩ <;>
    · cases h with | newtypeStruct h =>
      cases h
      first
        | exact List.nodup_singleton _
        | cases hl

/-- `C108_request`: a request with one text, whatever it is, inside of a newtype. -/
example (o : UrlOracle) (m : Method) (s : Str) (body : Bytes) : letI := toyFloat
    ∃ r, serRequest m exReqEntry (.newtypeStruct
        (.struct (requestFields (some (.tuple [.str s])) none none))) body = .ok r ∧
      ((∃ target segs, parseTarget o r.target = some target ∧ target.segs = some segs ∧
        Matches exReqEntry segs ∧
        deRequest exReqEntry (.newtypeStruct (.struct (requestFields (some (.tuple [.str])) none none)))
          target r.headers =
          .ok (.newtypeStruct (.struct (requestFields (some (.tuple [.str s])) none none)))) ↔
        Ascii s ∧ NoTabNl s ∧ ¬ Dots s) := by
  let := toyFloat
  have h1 := C23_in_order m exReqEntry (some (.tuple [.str s])) none none body
  rw [if_neg (by simp)] at h1
  have h2 : requestPath exReqEntry (some (.tuple [.str s])) =
      .ok ((instantiate exReqEntry [s]).foldl pushSegment ['/']) :=
    (C69_path exReqEntry ['/'] _).1 _ [s] (.tuple _) (.cons (.str s) .nil) rfl
  rw [requestOf, h2] at h1
  have ha : AsciiNames ([] ++ [(utf8 "Content-Length".toList, utf8 (showNat body.length))]) := by
    intro h hh
    rw [List.mem_singleton.1 hh]
    show ∀ b ∈ utf8 "Content-Length".toList, _
    decide
  refine ⟨_, h1, ?_⟩
  refine (C108_request o m exReqEntry exReq_consts
    (.newtypeStruct (.struct (requestFields (some (.tuple [.str s])) none none))) _
    (.newtypeStruct (.struct (.cons (.tuple (.cons (.str _) .nil)) .nil))) exTy_ok (fun h => ?_) body _ h1 ha
    _ (by simp) ha (fun _ _ _ _ => rfl)).trans (Iff.trans ?_ (user_intact s))
  rotate_left
  · have hp := RequestParts.newtypeStruct
      (.struct (some (.tuple [.str s])) none none (some (.tuple [.str])) none none)
    constructor
    · rintro ⟨ss, hi⟩
      exact ⟨ss, ((hp.intact _ _).1 hi).1⟩
    · rintro ⟨ss, hi⟩
      exact ⟨ss, (hp.intact _ _).2 ⟨hi, (fun _ h => nomatch h), fun _ h => nomatch h⟩⟩
  · cases h with
    | here h =>
      cases h with | newtypeStruct h =>
      generalize he : Val.struct _ = v at h
      cases h <;> cases he
    | newtypeStruct h =>
      generalize he : Val.struct _ = v at h
      cases h with
      | here h => subst he; cases h
      | struct hm h =>
        cases he
        have := (Prod.mk.inj (List.mem_singleton.1 hm)).2
        subst this
        exact noNaN_str s h
      | _ => cases he

/-- `C108_headers`: a field whose name is not in lower case arrives as `None` only. -/
example (x : Option Str) : letI := toyFloat
    HeaderIntact (.struct [("ETag".toList, match x with | some s => .some (.str s) | none => .none),
      ("age".toList, .int .u8 7)]) ↔ x = none := by
  let := toyFloat
  constructor
  · intro h
    cases h with
    | struct _ h =>
      rcases h _ (List.mem_cons_self ..) with h | h
      · exact absurd (h 'E' (List.mem_cons_self ..)) (by decide)
      · cases x with
        | none => rfl
        | some s => cases h
  · rintro rfl
    refine .struct (.absent rfl (.present (.plain (.int _ _)) .nil)) ?_
    intro f hf
    rcases List.mem_cons.1 hf with rfl | hf
    · exact .inr rfl
    · rw [List.mem_singleton.1 hf]; left; decide

/-- `C108_query`: a map arrives, a struct with `true` does not. -/
example : letI := toyFloat
    deQuery (.map .str (.int .u8)) (some "a=1&b=2".toList) =
      .ok (.map [(.str ['a'], .int .u8 1), (.str ['b'], .int .u8 2)]) := by
  let := toyFloat
  refine (C108_query (.map [(.str ['a'], .int .u8 1), (.str ['b'], .int .u8 2)]) (.map .str (.int .u8))
    (.map (.cons (.str _) (.int _ _ (by decide)) (.cons (.str _) (.int _ _ (by decide)) (.nil _ _))))
    List.nodup_nil ?_ _ rfl).2 (.map (.cons (.plain (.str _)) (.plain (.int _ _))
      (.cons (.plain (.str _)) (.plain (.int _ _)) .nil)) (by unfold DistinctKeys; decide))
  intro h
  generalize he : Val.map [(.str ['a'], .int .u8 1), (.str ['b'], .int .u8 2)] = v at h
  cases h with
  | here h => subst he; cases h
  | key hm h =>
    cases he
    simp only [List.mem_cons, Prod.mk.injEq, List.not_mem_nil, or_false] at hm
    rcases hm with ⟨rfl, -⟩ | ⟨rfl, -⟩ <;> · cases h with | here h => cases h
  | value hm h =>
    cases he
    simp only [List.mem_cons, Prod.mk.injEq, List.not_mem_nil, or_false] at hm
    rcases hm with ⟨-, rfl⟩ | ⟨-, rfl⟩ <;> · cases h with | here h => cases h
  | _ => cases he

example : letI := toyFloat
    ¬ QueryIntact (.struct [("f".toList, .bool true)]) := by
  let := toyFloat
  intro h
  cases h with
  | struct h =>
    cases h with
    | absent h => cases h
    | present h => cases h with | plain h => cases h

end ExactExamples

end Htrpc
