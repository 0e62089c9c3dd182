/-
C149: segments and methods are compared, never interpreted.
-/
import Verif.Spec.Respell
import Verif.Props.Mount

namespace Htrpc
open Spec

section
variable {H K : Type}

theorem respellSeg_inj {f : Str → Str} (hf : ∀ a b, f a = f b → a = b) {s t : Seg}
    (h : respellSeg f s = respellSeg f t) : s = t := by
  cases s with
  | val a =>
    cases t with
    | val b => rw [hf a b (Seg.val.inj h)]
    | var => cases h
  | var =>
    cases t with
    | val b => cases h
    | var => rfl

theorem respell_entry_inj {f : Str → Str} (hf : ∀ a b, f a = f b → a = b) {e e' : EntryPoint}
    (h : e.map (respellSeg f) = e'.map (respellSeg f)) : e = e' := by
  induction e generalizing e' with
  | nil =>
    cases e' with
    | nil => rfl
    | cons _ _ => cases h
  | cons s e ih =>
    cases e' with
    | nil => cases h
    | cons s' e' =>
      obtain ⟨h1, h2⟩ := List.cons.inj h
      rw [respellSeg_inj hf h1, ih h2]

theorem after_respell {f : Str → Str} (hf : ∀ a b, f a = f b → a = b) (g : Method → Method) (k : H → K) (s : Seg)
    (T : List (Reg H)) : after (respellSeg f s) (respell f g k T) = respell f g k (after s T) := by
  induction T with
  | nil => rfl
  | cons r T ih =>
    obtain ⟨m, e, h⟩ := r
    rw [after_cons, respell, List.map_cons, after_cons]
    change after _ [_] ++ after _ (respell f g k T) = _
    rw [ih]
    simp only [respell, List.map_append]
    congr 1
    cases e with
    | nil => rfl
    | cons s' e =>
      simp only [after, List.map_cons, List.filterMap_cons, List.filterMap_nil]
      by_cases hs : s' = s
      · subst hs; simp
      · rw [if_neg hs, if_neg fun h => hs (respellSeg_inj hf h)]
        rfl

theorem respell_conflict {f : Str → Str} (hf : ∀ a b, f a = f b → a = b) {g : Method → Method}
    (hg : ∀ a b, g a = g b → a = b) (k : H → K) (r r' : Reg H) :
    Conflict (⟨g r.method, r.entry.map (respellSeg f), k r.handler⟩ : Reg K)
      ⟨g r'.method, r'.entry.map (respellSeg f), k r'.handler⟩ ↔ Conflict r r' := by
  constructor
  · rintro ⟨h1, h2⟩
    exact ⟨hg _ _ h1, respell_entry_inj hf h2⟩
  · rintro ⟨h1, h2⟩
    exact ⟨congrArg g h1, congrArg (List.map (respellSeg f)) h2⟩

theorem accepted_respell {f : Str → Str} (hf : ∀ a b, f a = f b → a = b) {g : Method → Method}
    (hg : ∀ a b, g a = g b → a = b) (k : H → K) (rs : List (Reg H)) :
    accepted (respell f g k rs) = respell f g k (accepted rs) := by
  have key : ∀ (rs T : List (Reg H)),
      (respell f g k rs).foldl accept (respell f g k T) = respell f g k (rs.foldl accept T) := by
    intro rs
    induction rs with
    | nil => intro T; rfl
    | cons r rs ih =>
      intro T
      have h : accept (respell f g k T) ⟨g r.method, r.entry.map (respellSeg f), k r.handler⟩ =
          respell f g k (accept T r) := by
        have hc : (∃ r' ∈ respell f g k T, Conflict r' ⟨g r.method, r.entry.map (respellSeg f), k r.handler⟩) ↔
            ∃ r' ∈ T, Conflict r' r := by
          simp only [respell, List.mem_map]
          constructor
          · rintro ⟨_, ⟨r', hr', rfl⟩, h⟩
            exact ⟨r', hr', (respell_conflict hf hg k _ _).1 h⟩
          · rintro ⟨r', hr', h⟩
            exact ⟨_, ⟨r', hr', rfl⟩, (respell_conflict hf hg k _ _).2 h⟩
        rw [accept, accept]
        by_cases hx : ∃ r' ∈ T, Conflict r' r
        · rw [if_pos hx, if_pos (hc.2 hx)]
        · rw [if_neg hx, if_neg (mt hc.1 hx)]
          simp only [respell, List.map_append, List.map_cons, List.map_nil]
      change (respell f g k rs).foldl accept (accept _ _) = _
      rw [h, ih]
      rfl
  exact key rs []

theorem dispatch_respell {f : Str → Str} (hf : ∀ a b, f a = f b → a = b) {g : Method → Method}
    (hg : ∀ a b, g a = g b → a = b) (k : H → K) (m : Method) (path : List Str) (T : List (Reg H)) :
    dispatch (g m) (path.map f) (respell f g k T) = (dispatch m path T).map k := by
  induction path generalizing T with
  | nil =>
    have hfind : (respell f g k T).find? (fun r => decide (r.entry = [] ∧ r.method = g m)) =
        (T.find? fun r => decide (r.entry = [] ∧ r.method = m)).map
          fun r => ⟨g r.method, r.entry.map (respellSeg f), k r.handler⟩ := by
      rw [respell, List.find?_map]
      congr 2
      funext r
      simp only [Function.comp, List.map_eq_nil_iff]
      exact decide_eq_decide.2 (and_congr_right fun _ => ⟨fun h => hg _ _ h, fun h => congrArg g h⟩)
    rw [List.map_nil, dispatch, dispatch, hfind]
    cases T.find? fun r => decide (r.entry = [] ∧ r.method = m) <;> rfl
  | cons p path ih =>
    have h1 := after_respell hf g k (.val p) T
    have h2 := after_respell hf g k .var T
    have hne : ∀ T : List (Reg H), respell f g k T ≠ [] ↔ T ≠ [] := fun T => by
      rw [respell, Ne, List.map_eq_nil_iff]
    simp only [respellSeg] at h1 h2
    rw [List.map_cons, dispatch, dispatch, h1, h2]
    simp only [hne, ih]
    split
    · rfl
    · split <;> rfl

/-- **C149.** With other constants, other methods (different ones for different ones) and any other handlers a request
with the other segments and method gets the other handler or the same error. -/
theorem C149_compared (f : Str → Str) (hf : ∀ a b, f a = f b → a = b) (g : Method → Method)
    (hg : ∀ a b, g a = g b → a = b) (k : H → K) (rs : List (Reg H)) (m : Method) (path : List Str) :
    (registerAll (respell f g k rs) Trie.empty).1.route (g m) (path.map f) =
      ((registerAll rs Trie.empty).1.route m path).map k := by
  rw [C02_exact_dispatch, C02_exact_dispatch, accepted_respell hf hg, dispatch_respell hf hg]

/-- **C149.** And the same registrations succeed. -/
theorem C149_registered (f : Str → Str) (hf : ∀ a b, f a = f b → a = b) (g : Method → Method)
    (hg : ∀ a b, g a = g b → a = b) (k : H → K) (rs : List (Reg H)) :
    (registerAll (respell f g k rs) Trie.empty).2 = (registerAll rs Trie.empty).2 := by
  apply List.ext_getElem?
  intro i
  by_cases hi : i < rs.length
  · have e : rs = rs.take i ++ rs[i] :: rs.drop (i + 1) := by simp
    have hl : (rs.take i).length = i := by simp; omega
    have h1 := C04_register_fails_iff (rs.take i) (rs.drop (i + 1)) rs[i]
    have h2 := C04_register_fails_iff (respell f g k (rs.take i)) (respell f g k (rs.drop (i + 1)))
      ⟨g rs[i].method, rs[i].entry.map (respellSeg f), k rs[i].handler⟩
    have e' : respell f g k rs = respell f g k (rs.take i) ++
        ⟨g rs[i].method, rs[i].entry.map (respellSeg f), k rs[i].handler⟩ :: respell f g k (rs.drop (i + 1)) := by
      conv => lhs; rw [e]
      simp only [respell, List.map_append, List.map_cons]
    rw [← e, hl] at h1
    rw [← e', show (respell f g k (rs.take i)).length = i by simp [respell]; omega] at h2
    have hk : (registerAll (respell f g k rs) Trie.empty).2[i]? = some false ↔
        (registerAll rs Trie.empty).2[i]? = some false := by
      rw [h1, h2]
      constructor
      · rintro ⟨r', hr', hm, he⟩
        obtain ⟨r, hr, rfl⟩ := List.mem_map.1 hr'
        exact ⟨r, hr, hg _ _ hm, respell_entry_inj hf he⟩
      · rintro ⟨r, hr, hm, he⟩
        exact ⟨_, List.mem_map_of_mem hr, congrArg g hm, congrArg (List.map (respellSeg f)) he⟩
    have l1 : i < (registerAll (respell f g k rs) Trie.empty).2.length := by
      simpa [registerAll_length, respell] using hi
    have l2 : i < (registerAll rs Trie.empty).2.length := by simpa [registerAll_length] using hi
    rw [List.getElem?_eq_getElem l1, List.getElem?_eq_getElem l2] at hk ⊢
    revert hk
    cases (registerAll (respell f g k rs) Trie.empty).2[i] <;> cases (registerAll rs Trie.empty).2[i] <;> simp
  · rw [List.getElem?_eq_none (by simp [registerAll_length, respell]; omega),
      List.getElem?_eq_none (by simp [registerAll_length]; omega)]

theorem after_not_occurs {T : List (Reg H)} {s : Str} (h : ¬ Occurs T s) : after (.val s) T = [] := by
  rw [List.eq_nil_iff_forall_not_mem]
  intro r hr
  exact h ⟨_, mem_after.1 hr, .head _⟩

theorem occurs_after {T : List (Reg H)} {s : Str} {t : Seg} (h : Occurs (after t T) s) : Occurs T s := by
  obtain ⟨r, hr, hs⟩ := h
  exact ⟨_, mem_after.1 hr, .tail _ hs⟩

theorem alikeFor_mono {T T' : List (Reg H)} (h : ∀ s, Occurs T' s → Occurs T s) {p q : List Str}
    (ha : AlikeFor T p q) : AlikeFor T' p q := by
  induction ha with
  | nil => exact .nil
  | same s _ ih => exact .same s ih
  | other hs ht _ ih => exact .other (mt (h _) hs) (mt (h _) ht) ih

theorem dispatch_alike {T : List (Reg H)} {p q : List Str} (h : AlikeFor T p q) (m : Method) :
    dispatch m p T = dispatch m q T := by
  induction p generalizing q T with
  | nil => cases h; rfl
  | cons s p ih =>
    have hv : ∀ t : Seg, ∀ q, AlikeFor T p q → dispatch m p (after t T) = dispatch m q (after t T) :=
      fun t q hq => ih (alikeFor_mono (fun _ => occurs_after) hq)
    cases h with
    | same _ h =>
      rw [dispatch, dispatch, hv _ _ h, hv _ _ h]
    | other hs ht h =>
      rw [dispatch, dispatch, after_not_occurs hs, after_not_occurs ht, hv _ _ h]
      simp

/-- **C149.** A segment that is a constant of no entry point is as good as any other such segment. -/
theorem C149_arguments (rs : List (Reg H)) (p q : List Str) (h : AlikeFor rs p q) (m : Method) :
    (registerAll rs Trie.empty).1.route m p = (registerAll rs Trie.empty).1.route m q := by
  rw [C02_exact_dispatch, C02_exact_dispatch]
  refine dispatch_alike (alikeFor_mono ?_ h) m
  rintro s ⟨r, hr, hs⟩
  exact ⟨r, mem_of_mem_accepted hr, hs⟩

end

namespace RespellExamples

private def get : Method := .other 0
private def put : Method := .other 1

/-- `GET /a/{x}`, `PUT /a/b`, and `GET /a/{x}` again. -/
private def table : List (Reg Nat) :=
  [⟨get, [.val "a".toList, .var], 1⟩, ⟨put, [.val "a".toList, .val "b".toList], 2⟩,
    ⟨get, [.val "a".toList, .var], 3⟩]

/-- Every segment gets an `x` in front; the methods stay. -/
private def longer (s : Str) : Str := 'x' :: s

example : (registerAll (respell longer id (· + 10) table) Trie.empty).1.route put ["xa".toList, "xb".toList] = .ok 12 ∧
    (registerAll table Trie.empty).1.route put ["a".toList, "b".toList] = .ok 2 ∧
    (registerAll table Trie.empty).2 = [true, true, false] := by
  refine ⟨?_, by decide, by decide⟩
  exact C149_compared longer (fun _ _ h => (List.cons.inj h).2) id (fun _ _ h => h) (· + 10) table put
    ["a".toList, "b".toList]

example : (registerAll table Trie.empty).1.route get ["a".toList, "7".toList] = .ok 1 ∧
    (registerAll table Trie.empty).1.route get ["a".toList, "..".toList] = .ok 1 := by decide

/-- The segments differ but neither is a constant. -/
example : AlikeFor table ["a".toList, "7".toList] ["a".toList, "..".toList] :=
  .same _ (.other (by simp [Occurs, table]) (by simp [Occurs, table]) .nil)

/-- A constant is not as good as another segment. -/
example : (registerAll table Trie.empty).1.route get ["a".toList, "b".toList] = .error .methodNotAllowed := by decide

end RespellExamples

end Htrpc
