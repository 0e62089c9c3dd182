/-
Cases that meet the hypotheses of the theorems in Verif/Props/Landing.lean.
-/
import Verif.Props.ConversationExamples
import Verif.Props.HttpExamples
import Verif.Props.Landing

namespace Htrpc
open Spec Http

namespace LandingExamples
open ToyJson ToyMethods HttpExamples

attribute [local instance] toyFloat toyUrl toyJson toyMethods

/-- Where some lists of texts lead. -/
example : landing ["a".toList, "b c".toList] = ["a".toList, "b%20c".toList] := by decide
example : landing ["a".toList, ".".toList, "..".toList, "b".toList] = ["a".toList, "b".toList] := by decide
example : landing [[], [], "a".toList, []] = ["a".toList, []] := by decide
example : landing ["a".toList, "b".toList, ".\t.".toList, "c".toList] =
    ["a".toList, [], "c".toList] := by decide
example : landing ["a".toList, ".\n".toList, "c".toList] = ["a".toList, [], "c".toList] := by decide
example : landing ["..".toList] = [[]] := by decide

/-- `C112_segments`: the argument is empty but not at the beginning, or `..`. -/
theorem ex_landing (arg : Str) : ∃ r ps,
    serRequest (.other 1) [.val "a".toList, .var, .val "b".toList]
      (.struct (requestFields (some (.tuple [.str arg])) none none)) [] = .ok r ∧
    TargetOf r.target (landing ["a".toList, arg, "b".toList]) ps := by
  obtain ⟨r, hr⟩ : ∃ r, serRequest (.other 1) [.val "a".toList, .var, .val "b".toList]
      (.struct (requestFields (some (.tuple [.str arg])) none none)) [] = .ok r := by
    rw [C23_in_order, if_neg (by simp), requestOf, requestPath,
      (C69_path _ _ _).1 _ _ (.tuple _) (.cons (.str _) .nil) rfl]
    exact ⟨_, rfl⟩
  obtain ⟨texts, ps, h1, -, h3⟩ := C112_segments _ _ _ (by unfold DistinctNames; simp [requestFields, optField]) _ _ hr
  refine ⟨r, ps, hr, ?_⟩
  generalize hp : (requestFields (some (Val.tuple [.str arg])) none none).lookup "path".toList = p at h1
  cases h1 with
  | none => cases hp
  | args hv hs hl =>
    cases hp
    cases hv
    cases hs with
    | cons hs hss =>
    cases hs
    cases hss
    exact h3

example : ∃ r ps, serRequest (.other 1) [.val "a".toList, .var, .val "b".toList]
      (.struct (requestFields (some (.tuple [.str []])) none none)) [] = .ok r ∧
    TargetOf r.target ["a".toList, [], "b".toList] ps := ex_landing []

example : ∃ r ps, serRequest (.other 1) [.val "a".toList, .var, .val "b".toList]
      (.struct (requestFields (some (.tuple [.str "..".toList])) none none)) [] = .ok r ∧
    TargetOf r.target ["a".toList, "b".toList] ps := ex_landing "..".toList

/-- `C112_without_breaks`. -/
example : landing [[], "..".toList, "a/b".toList] = ["a%2Fb".toList] := by
  rw [C112_without_breaks _ (by simp [NoTabNl])]
  decide

/-- `C112_same_places`: the paths of `a/_` lead only to entry points with two segments that begin with
`a` or a variable. -/
example (e' : EntryPoint) (h : Matches e' (landing (instantiate [.val "a".toList, .var] ["x y".toList]))) :
    e'.length = 2 ∧ (∀ c', e'[0]? = some (Seg.val c') → c' = "a".toList) ∧
      ∀ c', e'[1]? = some (Seg.val c') → c' = "x%20y".toList := by
  obtain ⟨h1, h2, h3⟩ := C112_same_places [.val "a".toList, .var] e' (by
    intro c hc
    simp only [List.mem_cons, List.not_mem_nil, or_false] at hc
    rcases hc with h | h
    · cases h; intro ch hch; left; revert ch; decide
    · cases h) ["x y".toList] ⟨by simp [instantiate], by decide, .inr ⟨_, rfl, by decide⟩⟩ h
  exact ⟨h1, fun c' hc => (h2 0 _ c' rfl hc).symm, fun c' hc =>
    (h3 [.val "a".toList] [] _ c' rfl rfl hc).trans (by decide)⟩

/-- `C112_left_out` and `C112_other_procedure`: calls of three procedures of which only one is meant. -/
example (tag : Str) (body : Bytes) :
    serRequest (.other 1) ([.val "users".toList] ++ .var :: [.var])
        (.struct (requestFields (some (.tuple ([] ++ .str ".".toList :: [.str "a b?#/".toList]))) none
          (some (HttpExamples.exHeader tag)))) body = .ok (exRequest tag body) ∧
    serRequest (.other 1) (.val "public".toList :: .var :: [.val "users".toList, .var])
        (.struct (requestFields (some (.tuple (.str ".\t.".toList :: [.str "a b?#/".toList]))) none
          (some (HttpExamples.exHeader tag)))) body = .ok (exRequest tag body) := by
  refine ⟨?_, ?_⟩
  · rw [C112_left_out _ _ _ _ _ rfl _ (.inl rfl)]
    exact ex_ser tag body
  · rw [C112_other_procedure _ _ _ _ (by decide) (by decide)]
    exact ex_ser tag body

/-- `C112_reached`: the request that all of them send, read by the server. -/
example (s : Service) (v : Val) (body more rest : Bytes) (head : ReqHead)
    (hr : readHead (writeRequest (exRequest "hello world".toList body) ++ more) = .done head rest)
    (hj : Judged exCfg head (.call s v)) :
    s.reg ∈ table exCfg ∧ s.method = .other 1 ∧ Matches s.entry ["users".toList, "a%20b%3F%23%2F".toList] := by
  obtain ⟨texts, h1, h2⟩ := C112_reached exCfg (.other 1) exEntry _
    (by unfold DistinctNames; simp [requestFields, optField]) body _ (ex_ser "hello world".toList body) more rest head hr
  obtain ⟨h3, h4, h5, -⟩ := h2 s v hj
  refine ⟨h3, h4, ?_⟩
  generalize hp : (requestFields (some (Val.tuple [.str "a b?#/".toList])) none
    (some (HttpExamples.exHeader "hello world".toList))).lookup "path".toList = p at h1
  cases h1 with
  | none => cases hp
  | args hv hs hl =>
    cases hp
    cases hv
    cases hs with
    | cons hs hss =>
    cases hs
    cases hss
    exact h5

/-- `C112_called`: on a connection where this request is served, the handler that is called. -/
example : letI := serverWire
    ∃ head l, (blocks (connLog exCfg ConversationExamples.exEvents))[0]? = some (head, l) ∧
      calls l = [(exService, exVal "hello world".toList, exVal "hello world".toList)] ∧
      ∃ texts, PathTexts exEntry (some (.tuple [.str "a b?#/".toList])) texts ∧
        Matches exService.entry (landing texts) := by
  let := serverWire
  obtain ⟨head, hrun⟩ := ConversationExamples.ex_run
  have hb : (blocks (connLog exCfg ConversationExamples.exEvents))[0]? = some (head,
      [.invoked exService (exVal "hello world".toList) (exVal "hello world".toList),
       .returned (.unitVariant "Ok".toList) [4, 5],
       .answer (onWire head ⟨.ok, [contentLength [4, 5]], [4, 5]⟩), .written]) := by
    rw [connLog, hrun]; rfl
  refine ⟨head, _, hb, rfl, ?_⟩
  obtain ⟨texts, h1, -, -, h2, -⟩ := C112_called exCfg _ [] [] .nil (.other 1) exEntry _
    (by unfold DistinctNames; simp [requestFields, optField]) [7] _ (ex_ser "hello world".toList [7]) []
    ConversationExamples.exEvents ⟨[], by simp [arriving, ConversationExamples.exEvents]; rfl⟩
    ConversationExamples.ex_whole head _ _ _ _ hb (List.mem_singleton_self _)
  exact ⟨texts, h1, h2⟩

end LandingExamples
end Htrpc
