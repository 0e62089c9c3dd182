import Verif.Spec.Routing
import Mathlib.Logic.Basic
import Mathlib.Tactic.ByContra

namespace Htrpc

namespace Trie
variable {H : Type}

theorem lookup_setChild (cs : List (Option Str × Trie H)) (key k : Option Str) (t : Trie H) :
    (setChild cs key t).lookup k = if k = key then some t else cs.lookup k := by
  induction cs with
  | nil =>
    by_cases h : k = key
    · simp [setChild, h]
    · have : (k == key) = false := by simpa using h
      simp [setChild, List.lookup, h, this]
  | cons c cs ih =>
    obtain ⟨k', c'⟩ := c
    by_cases h : k' = key
    · subst h
      by_cases hk : k = k'
      · subst hk; simp [setChild]
      · have : (k == k') = false := by simpa using hk
        simp [setChild, List.lookup, hk, this]
    · by_cases hk : k = k'
      · subst hk; simp [setChild, h]
      · have : (k == k') = false := by simpa using hk
        simp [setChild, h, List.lookup, this, ih]

/-- Follow the keys. -/
def descend : Trie H → List Seg → Option (Trie H)
  | t, [] => some t
  | t, s :: ss => (t.children.lookup s.asOption).bind fun c => descend c ss

/-- The handler at a node. -/
def valueAt (t : Trie H) (p : List Seg) (m : Method) : Option H :=
  (descend t p).bind fun c => c.getValue m

theorem asOption_inj {a b : Seg} : a.asOption = b.asOption ↔ a = b := by
  cases a <;> cases b <;> simp [Seg.asOption]

@[simp] theorem descend_empty (p : List Seg) :
    (descend (empty : Trie H) p).isSome = true ↔ p = [] := by
  cases p <;> simp [descend, empty, children]

@[simp] theorem valueAt_empty (p : List Seg) (m : Method) :
    valueAt (empty : Trie H) p m = none := by
  cases p <;> simp [valueAt, descend, empty, children, getValue, leafs]

theorem descend_getD (o : Option (Trie H)) (p : List Seg) :
    (descend (o.getD empty) p).isSome = true ↔ p = [] ∨ (o.bind (descend · p)).isSome = true := by
  cases o with
  | none => simp
  | some t =>
    simp only [Option.getD_some, Option.bind_some]
    constructor
    · exact fun h => .inr h
    · rintro (h | h)
      · subst h; simp [descend]
      · exact h

theorem valueAt_getD (o : Option (Trie H)) (p : List Seg) (m : Method) :
    valueAt (o.getD empty) p m = o.bind (fun t => valueAt t p m) := by
  cases o <;> simp

theorem descend_insert (m : Method) (h : H) (ss : List Seg) (t : Trie H) (p : List Seg) :
    (descend (insert m h ss t).1 p).isSome = true ↔
      (descend t p).isSome = true ∨ p <+: ss := by
  induction ss generalizing t p with
  | nil =>
    obtain ⟨cs, ls⟩ := t
    have : (insert m h [] (node cs ls)).1.children = cs := by
      unfold insert; split <;> rfl
    cases p with
    | nil => simp [descend]
    | cons k p => simp only [descend, this]; simp [children]
  | cons s ss ih =>
    obtain ⟨cs, ls⟩ := t
    cases p with
    | nil => simp [descend]
    | cons k p =>
      simp only [insert, descend, children, lookup_setChild, asOption_inj, List.cons_prefix_cons]
      by_cases hk : k = s
      · subst hk
        simp only [if_true, Option.bind_some, ih, descend_getD]
        constructor
        · rintro ((h | h) | h)
          · subst h; exact .inr ⟨trivial, List.nil_prefix⟩
          · exact .inl h
          · exact .inr ⟨trivial, h⟩
        · rintro (h | h)
          · exact .inl (.inr h)
          · exact .inr h.2
      · simp [hk]

theorem valueAt_cons (t : Trie H) (k : Seg) (p : List Seg) (m : Method) :
    valueAt t (k :: p) m = (t.children.lookup k.asOption).bind fun c => valueAt c p m := by
  simp only [valueAt, descend]
  cases t.children.lookup k.asOption <;> rfl

theorem valueAt_insert (m m' : Method) (h : H) (ss : List Seg) (t : Trie H) (p : List Seg) :
    valueAt (insert m h ss t).1 p m' =
      if p = ss ∧ m' = m ∧ valueAt t p m = none then some h else valueAt t p m' := by
  induction ss generalizing t p with
  | nil =>
    obtain ⟨cs, ls⟩ := t
    cases p with
    | nil =>
      simp only [valueAt, descend, Option.bind_some, getValue, leafs, insert, true_and]
      cases hl : ls.lookup m with
      | none =>
        by_cases hm : m' = m
        · subst hm; simp
        · have : (m' == m) = false := by simpa using hm
          simp [hm, List.lookup, this]
      | some x => simp
    | cons k p =>
      have : (insert m h [] (node cs ls)).1.children = cs := by
        unfold insert; split <;> rfl
      simp only [valueAt_cons, this]; simp [children]
  | cons s ss ih =>
    obtain ⟨cs, ls⟩ := t
    cases p with
    | nil => simp [valueAt, descend, insert, getValue, leafs]
    | cons k p =>
      simp only [insert, valueAt_cons, children, lookup_setChild, asOption_inj, List.cons.injEq]
      by_cases hk : k = s
      · subst hk
        simp only [if_true, Option.bind_some, ih, valueAt_getD, true_and]
      · simp [hk]

theorem insert_snd (m : Method) (h : H) (ss : List Seg) (t : Trie H) :
    (insert m h ss t).2 = (valueAt t ss m).isNone := by
  induction ss generalizing t with
  | nil =>
    obtain ⟨cs, ls⟩ := t
    simp only [insert, valueAt, descend, Option.bind_some, getValue, leafs]
    cases ls.lookup m <;> rfl
  | cons s ss ih =>
    obtain ⟨cs, ls⟩ := t
    simp only [insert, ih, valueAt_getD, valueAt_cons, children]

end Trie

variable {H : Type}
open Spec

/-- First registration for this method and entry point. -/
def handlerFor (T : List (Reg H)) (p : List Seg) (m : Method) : Option H :=
  (T.find? fun r => decide (r.entry = p ∧ r.method = m)).map Reg.handler

/-- The trie represents the table. -/
structure Rep (t : Trie H) (T : List (Reg H)) : Prop where
  nodes : ∀ p, (t.descend p).isSome = true ↔ p = [] ∨ ∃ r ∈ T, p <+: r.entry
  values : ∀ p m, t.valueAt p m = handlerFor T p m

theorem Rep.empty : Rep (Trie.empty : Trie H) [] where
  nodes p := by simp
  values p m := by simp [handlerFor]

theorem handlerFor_isNone (T : List (Reg H)) (p : List Seg) (m : Method) :
    handlerFor T p m = none ↔ ¬ ∃ r ∈ T, r.method = m ∧ r.entry = p := by
  simp only [handlerFor, Option.map_eq_none_iff, List.find?_eq_none]
  constructor
  · rintro h ⟨r, hr, hm, he⟩
    exact h r hr (by simp [hm, he])
  · intro h r hr hc
    simp only [decide_eq_true_eq] at hc
    exact h ⟨r, hr, hc.2, hc.1⟩

theorem Rep.insert {t : Trie H} {T : List (Reg H)} (h : Rep t T) (r : Reg H) :
    Rep (t.insert r.method r.handler r.entry).1
      (if ∃ r' ∈ T, Conflict r' r then T else T ++ [r]) := by
  have hc : (∃ r' ∈ T, Conflict r' r) ↔ handlerFor T r.entry r.method ≠ none := by
    simp only [ne_eq, handlerFor_isNone, not_not]; rfl
  constructor
  · intro p
    rw [Trie.descend_insert, h.nodes]
    by_cases hcc : ∃ r' ∈ T, Conflict r' r
    · rw [if_pos hcc]
      obtain ⟨r', hr', _, he⟩ := hcc
      constructor
      · rintro ((h | h) | h)
        · exact .inl h
        · exact .inr h
        · exact .inr ⟨r', hr', he ▸ h⟩
      · exact fun h => .inl h
    · rw [if_neg hcc]
      simp only [List.mem_append, List.mem_singleton, or_and_right, exists_or, exists_eq_left,
        or_assoc]
  · intro p m
    rw [Trie.valueAt_insert]
    simp only [h.values]
    by_cases hcc : ∃ r' ∈ T, Conflict r' r
    · rw [if_pos hcc]
      split
      · rename_i hh
        exact absurd (hh.1 ▸ hh.2.2) (hc.1 hcc)
      · rfl
    · rw [if_neg hcc]
      have hn : handlerFor T r.entry r.method = none := by
        by_contra hne; exact hcc (hc.2 hne)
      have happ : handlerFor (T ++ [r]) p m =
          (handlerFor T p m).or (if r.entry = p ∧ r.method = m then some r.handler else none) := by
        simp only [handlerFor, List.find?_append, Option.map_or, List.find?_singleton]
        by_cases hp : r.entry = p ∧ r.method = m <;> simp [hp]
      rw [happ]
      split
      · rename_i hh
        obtain ⟨rfl, rfl, _⟩ := hh
        simp [hn]
      · rename_i hh
        by_cases hp : r.entry = p ∧ r.method = m
        · exact absurd ⟨hp.1.symm, hp.2.symm, by rw [← hp.1]; exact hn⟩ hh
        · simp [hp]

theorem Rep.registerAll {t : Trie H} {T : List (Reg H)} (h : Rep t T) (rs : List (Reg H)) :
    Rep (Htrpc.registerAll rs t).1
      (rs.foldl accept T) := by
  induction rs generalizing t T with
  | nil => exact h
  | cons r rs ih => exact ih (h.insert r)

theorem mem_after {s : Seg} {T : List (Reg H)} {r : Reg H} :
    r ∈ after s T ↔ { r with entry := s :: r.entry } ∈ T := by
  simp only [after, List.mem_filterMap]
  constructor
  · rintro ⟨a, ha, hb⟩
    cases hea : a.entry with
    | nil => simp [hea] at hb
    | cons s' e =>
      simp only [hea] at hb
      split at hb
      · rename_i hs
        cases hb
        subst hs
        rw [← hea]
        exact ha
      · cases hb
  · intro ha
    exact ⟨_, ha, by simp⟩

theorem after_ne_nil {s : Seg} {T : List (Reg H)} :
    after s T ≠ [] ↔ ∃ r ∈ T, [s] <+: r.entry := by
  constructor
  · intro h
    obtain ⟨r, hr⟩ := List.exists_mem_of_ne_nil _ h
    exact ⟨_, mem_after.1 hr, by simp⟩
  · rintro ⟨r, hr, e, he⟩ hnil
    have : ({ r with entry := e } : Reg H) ∈ after s T := by
      rw [mem_after]
      have : s :: e = r.entry := he
      simpa [this] using hr
    rw [hnil] at this
    cases this

theorem handlerFor_after (s : Seg) (T : List (Reg H)) (p : List Seg) (m : Method) :
    handlerFor (after s T) p m = handlerFor T (s :: p) m := by
  simp only [handlerFor]
  induction T with
  | nil => rfl
  | cons r T ih =>
    simp only [after, List.filterMap_cons]
    cases he : r.entry with
    | nil =>
      have hd : decide (([] : List Seg) = s :: p ∧ r.method = m) = false := by simp
      simp only [List.find?_cons, he, hd]
      exact ih
    | cons s' e =>
      by_cases hs : s' = s
      · subst hs
        simp only [if_true, List.find?_cons, he, List.cons.injEq, true_and]
        cases decide (e = p ∧ r.method = m) with
        | true => rfl
        | false => exact ih
      · have hd : decide (s' :: e = s :: p ∧ r.method = m) = false := by simp [hs]
        simp only [if_neg hs, List.find?_cons, he, hd]
        exact ih

theorem Rep.child {t c : Trie H} {T : List (Reg H)} {s : Seg} (h : Rep t T)
    (hc : t.children.lookup s.asOption = some c) : Rep c (after s T) := by
  have hne : after s T ≠ [] := by
    rw [after_ne_nil]
    have := (h.nodes [s]).1 (by simp [Trie.descend, hc])
    simpa using this
  constructor
  · intro p
    have := h.nodes (s :: p)
    simp only [Trie.descend, hc, Option.bind_some, reduceCtorEq, false_or] at this
    rw [this]
    constructor
    · rintro ⟨r, hr, e, he⟩
      right
      refine ⟨{ r with entry := p ++ e }, ?_, by simp⟩
      rw [mem_after]
      have he : s :: (p ++ e) = r.entry := he
      simpa [he] using hr
    · rintro (rfl | ⟨r, hr, hp⟩)
      · exact after_ne_nil.1 hne
      · exact ⟨_, mem_after.1 hr, by simpa using hp⟩
  · intro p m
    have := h.values (s :: p) m
    rw [Trie.valueAt_cons, hc] at this
    rw [handlerFor_after]
    exact this

theorem Rep.lookup_none {t : Trie H} {T : List (Reg H)} {s : Seg} (h : Rep t T) :
    t.children.lookup s.asOption = none ↔ after s T = [] := by
  have h1 := h.nodes [s]
  simp only [Trie.descend, List.cons_ne_nil, false_or] at h1
  have h2 := after_ne_nil (s := s) (T := T)
  rw [← h1] at h2
  cases hc : t.children.lookup s.asOption with
  | none => simp [hc] at h2; simp [h2]
  | some c => simp [hc] at h2; simp [h2]

theorem Rep.route {t : Trie H} {T : List (Reg H)} (h : Rep t T) (m : Method) (path : List Str) :
    t.route m path = dispatch m path T := by
  induction path generalizing t T with
  | nil =>
    have := h.values [] m
    simp only [Trie.valueAt, Trie.descend, Option.bind_some, handlerFor] at this
    simp only [Trie.route, dispatch, this]
    cases T.find? fun r => decide (r.entry = [] ∧ r.method = m) <;> rfl
  | cons p ps ih =>
    simp only [Trie.route, dispatch, Trie.getChild]
    cases hv : t.children.lookup (some p) with
    | some c =>
      have hv' : t.children.lookup (Seg.val p).asOption = some c := hv
      have : after (.val p) T ≠ [] := by
        intro hn; rw [h.lookup_none.2 hn] at hv'; cases hv'
      rw [if_pos this]
      exact ih (h.child hv')
    | none =>
      have hn : after (.val p) T = [] := h.lookup_none.1 hv
      rw [if_neg (by simp [hn])]
      cases hx : t.children.lookup none with
      | some c =>
        have hx' : t.children.lookup Seg.var.asOption = some c := hx
        have : after .var T ≠ [] := by
          intro hn; rw [h.lookup_none.2 hn] at hx'; cases hx'
        rw [if_pos this]
        exact ih (h.child hx')
      | none =>
        have hn : after .var T = [] := h.lookup_none.1 hx
        simp [hn]

end Htrpc
