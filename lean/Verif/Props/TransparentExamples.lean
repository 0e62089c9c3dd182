/-
Cases that meet the hypotheses of the theorems in Verif/Props/Transparent.lean.
-/
import Verif.Props.HttpExamples
import Verif.Props.TransparentServer

namespace Htrpc
open Spec Http

namespace TransparentExamples
open ToyJson ToyMethods HttpExamples

attribute [local instance] toyFloat toyUrl toyJson toyMethods

theorem noNaN_str (s : Str) : ¬ HasNaN (.str s) := by
  intro h
  cases h with | here h => cases h

theorem noNaN_path (s : Str) : ¬ HasNaN (.tuple [.str s]) := by
  intro h
  cases h with
  | here h => cases h
  | tuple hm h => rw [List.mem_singleton.1 hm] at h; exact noNaN_str _ h

theorem noNaN_header (s : Str) : ¬ HasNaN (HttpExamples.exHeader s) := by
  intro h
  unfold HttpExamples.exHeader at h
  generalize hv : Val.struct [("x-tag".toList, .str s)] = v at h
  cases h with
  | here h => subst hv; cases h
  | struct hm h =>
    cases hv
    have := (Prod.mk.inj (List.mem_singleton.1 hm)).2
    subst this
    exact noNaN_str _ h
  | _ => cases hv

theorem noNaN_val (s : Str) : ¬ HasNaN (exVal s) := by
  intro h
  unfold exVal at h
  generalize hv : Val.struct _ = v at h
  cases h with
  | here h => subst hv; cases h
  | struct hm h =>
    cases hv
    simp only [requestFields, optField, List.cons_append, List.nil_append, List.mem_cons,
      List.not_mem_nil, or_false, Prod.mk.injEq] at hm
    rcases hm with ⟨-, rfl⟩ | ⟨-, rfl⟩
    · exact noNaN_path _ h
    · exact noNaN_header _ h
  | _ => cases hv

theorem ex_ty (tag : Str) : HasTy (exVal tag) exService.reqTy :=
  .struct (.cons (.tuple (.cons (.str _) .nil)) (.cons (.struct (.cons (.str _) .nil)) .nil))

theorem ex_structOf {ts : List (Str × Ty)} (h : StructOf exService.reqTy ts) :
    ts = requestFields (some (.tuple [.str])) none (some (.struct [("x-tag".toList, .str)])) := by
  generalize he : exService.reqTy = t at h
  cases h with
  | struct => cases he; rfl
  | newtypeStruct => cases he

theorem exTy_ok : RequestTy exService.reqTy := by
  refine ⟨fun ts h => ?_, fun ts u h hl => ?_, fun ts u h hl => ?_⟩ <;> rw [ex_structOf h] at *
  · unfold DistinctNames; decide
  · cases hl
  · cases hl; exact ⟨rfl, by simp [names], by decide⟩

theorem exTy_te (ts : List (Str × Ty)) (u : Ty) (h : StructOf exService.reqTy ts)
    (hl : ts.lookup "header".toList = some u) : "transfer-encoding".toList ∉ (names u).map lowerText := by
  rw [ex_structOf h] at hl
  cases hl
  decide

/-- The requests of `HttpExamples` for all tags. -/
theorem ex_iff (tag : Str) (body more : Bytes) :
    Delivered exCfg (writeRequest (exRequest tag body)) more exService (exVal tag) body ↔
      SafeValue (utf8 tag) ∧
        (writeRequest (exRequest tag body)).length ≤ 8096 + body.length := by
  have key := C110_request exCfg exService (by rw [show table exCfg = [exService.reg] from rfl]; simp)
    exReq_consts (exVal tag) (ex_ty tag) exTy_ok exTy_te (noNaN_val tag)
    body (exRequest tag body) (ex_ser tag body) more
  refine key.trans ⟨fun h => ⟨(h.2.1 _ (List.mem_cons_self ..)).2, h.2.2.1⟩, fun h => ?_⟩
  refine ⟨⟨["a b?#/".toList], .struct (q := none) (h := some (HttpExamples.exHeader tag)) (tq := none)
    (th := some (.struct [("x-tag".toList, .str)])) (.args (.tuple _) (.tuple (.cons (.str _) .nil))
      (.cons (.str _) .nil) rfl (by unfold Ascii; decide) (by unfold NoTabNl; decide))
    ⟨by decide, by decide, .inr ⟨_, rfl, by decide⟩⟩ (fun v h => nomatch h) ?_, ?_⟩, ?_, h.2,
    by show 2 ≤ 32; decide⟩
  · intro v h
    cases h
    exact .struct (ex_header_fields tag) (by intro f hf; rw [List.mem_singleton.1 hf]; exact .inl (show LowerName "x-tag".toList by decide))
  · rintro ⟨pre, suf, p, h1, h2, r, hr, h3⟩
    rw [show table exCfg = [exService.reg] from rfl, List.mem_singleton] at hr
    subst hr
    simp only [exService, Service.reg, exEntry] at h1 h3
    match pre with
    | [] => cases h1
    | [a] => cases h1; simp at h3
    | a :: b :: pre =>
      simp only [List.cons_append, List.cons.injEq] at h1
      exact absurd h1.2.2 (by simp)
  · intro x hx
    rcases List.mem_cons.1 hx with rfl | hx
    · exact ⟨show SafeName (utf8 "x-tag".toList) from ⟨by decide, by decide⟩, h.1⟩
    · rw [List.mem_singleton.1 hx]; exact contentLength_safe body

/-- `C110_request`: with this tag it arrives, -/
example (more : Bytes) : Delivered exCfg (writeRequest (exRequest "hello world".toList [7])) more exService
    (exVal "hello world".toList) [7] := by
  refine (ex_iff _ _ _).2 ⟨?_, by decide +kernel⟩
  exact ((C67_safe_request _ _ _ _ _ ex_safe [7] _ (ex_ser _ _)).1 _ (List.mem_cons_self ..)).2

/-- with a blank at the beginning it does not. -/
example (body more : Bytes) : ¬ Delivered exCfg (writeRequest (exRequest " a".toList body)) more exService
    (exVal " a".toList) body := by
  rw [ex_iff]
  rintro ⟨h, -⟩
  exact absurd rfl (h.2 32 (.inl rfl)).1

/-- `C110_server`: what a connection does with these two. -/
example (more : Bytes) : letI := serverWire
    ∃ h rest f, ConnState.step exCfg
        ⟨.readHead, .other 0, writeRequest (exRequest "hello world".toList [7]) ++ more, none⟩ .input =
      (⟨.readBody h exService (exVal "hello world".toList), h.method, rest, none⟩, [.read h]) ∧
      readBody h.headers = some f ∧ f rest = .done [7] more := by
  refine (delivered_iff exCfg ⟨_, _, _, _⟩ rfl _ more rfl exService _ _).2 ((ex_iff _ _ _).2 ⟨?_, by decide +kernel⟩)
  exact ((C67_safe_request _ _ _ _ _ ex_safe [7] _ (ex_ser _ _)).1 _ (List.mem_cons_self ..)).2

example (body more : Bytes) : letI := serverWire
    ¬ ∃ h rest f, ConnState.step exCfg
        ⟨.readHead, .other 0, writeRequest (exRequest " a".toList body) ++ more, none⟩ .input =
      (⟨.readBody h exService (exVal " a".toList), h.method, rest, none⟩, [.read h]) ∧
      readBody h.headers = some f ∧ f rest = .done body more := by
  let := serverWire
  intro h
  obtain ⟨h, -⟩ := (ex_iff _ _ _).1 ((delivered_iff exCfg ⟨_, _, _, _⟩ rfl _ more rfl exService _ _).1 h)
  exact absurd rfl (h.2 32 (.inl rfl)).1

open ExactResponseExamples (justStatus statusTy statusTy_ok noNaN_status)

/-- `C110_response`: a response that consists of a status arrives, -/
example (body more : Bytes) : Returned (.other 1)
    (writeResponse [] ⟨.notFound, [contentLength body], body⟩) more statusTy (justStatus 404) body := by
  have h1 : serResponse (justStatus 404) body = .ok ⟨.notFound, [contentLength body], body⟩ := rfl
  refine (C110_response (justStatus 404) statusTy (.struct (.cons (.int _ _ (by decide)) .nil))
    statusTy_ok (noNaN_status _) (by intro ts u h; cases h; intro h; cases h) body _ h1 []
    (by simp) ⟨.other 1, [], []⟩ more).2 ⟨.struct (h := none) (fun _ h => nomatch h), ?_⟩
  intro x hx
  rw [List.mem_singleton.1 hx]
  exact contentLength_safe body

end TransparentExamples

end Htrpc
