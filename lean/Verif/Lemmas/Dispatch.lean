import Verif.Lemmas.Router

namespace Htrpc
open Spec
variable {H : Type}

theorem dispatch_sound {m : Method} {path : List Str} {T : List (Reg H)} {h : H}
    (hd : dispatch m path T = .ok h) :
    ∃ r ∈ T, r.handler = h ∧ r.method = m ∧ Matches r.entry path := by
  induction path generalizing T with
  | nil =>
    simp only [dispatch] at hd
    split at hd
    · rename_i r hr
      have h1 := List.mem_of_find?_eq_some hr
      have h2 := List.find?_some hr
      simp only [decide_eq_true_eq] at h2
      cases hd
      exact ⟨r, h1, rfl, h2.2, h2.1 ▸ .nil⟩
    · cases hd
  | cons p ps ih =>
    simp only [dispatch] at hd
    split at hd
    · obtain ⟨r, hr, h1, h2, h3⟩ := ih hd
      exact ⟨_, mem_after.1 hr, h1, h2, .cons rfl h3⟩
    · split at hd
      · obtain ⟨r, hr, h1, h2, h3⟩ := ih hd
        exact ⟨_, mem_after.1 hr, h1, h2, .cons trivial h3⟩
      · cases hd

theorem mem_foldl_accept {rs T : List (Reg H)} {r : Reg H} :
    r ∈ rs.foldl accept T →
      r ∈ T ∨ r ∈ rs := by
  induction rs generalizing T with
  | nil => exact .inl
  | cons a rs ih =>
    intro h
    rcases ih h with h | h
    · unfold accept at h
      split at h
      · exact .inl h
      · rcases List.mem_append.1 h with h | h
        · exact .inl h
        · simp at h; subst h; exact .inr (List.mem_cons_self ..)
    · exact .inr (List.mem_cons_of_mem _ h)

theorem mem_of_mem_accepted {rs : List (Reg H)} {r : Reg H} (h : r ∈ accepted rs) : r ∈ rs := by
  simpa using mem_foldl_accept h

theorem accept_mono {rs T : List (Reg H)} {r : Reg H} (h : r ∈ T) :
    r ∈ rs.foldl accept T := by
  induction rs generalizing T with
  | nil => exact h
  | cons a rs ih =>
    apply ih
    unfold accept
    split
    · exact h
    · exact List.mem_append_left _ h

theorem accept_covers {rs T : List (Reg H)} {r : Reg H} (h : r ∈ rs) :
    ∃ r' ∈ rs.foldl accept T,
      Conflict r' r := by
  induction rs generalizing T with
  | nil => cases h
  | cons a rs ih =>
    rcases List.mem_cons.1 h with rfl | h
    · by_cases hc : ∃ r' ∈ T, Conflict r' r
      · obtain ⟨r', hr', hc'⟩ := hc
        refine ⟨r', ?_, hc'⟩
        refine accept_mono (T := accept T r) (rs := rs) ?_
        rw [accept, if_pos ⟨r', hr', hc'⟩]; exact hr'
      · refine ⟨r, ?_, rfl, rfl⟩
        refine accept_mono (T := accept T r) (rs := rs) ?_
        rw [accept, if_neg hc]; simp
    · exact ih h

/-- Every registration has an accepted one with the same method and entry point. -/
theorem accepted_covers {rs : List (Reg H)} {r : Reg H} (h : r ∈ rs) :
    ∃ r' ∈ accepted rs, Conflict r' r := accept_covers h

theorem accepted_append (rs : List (Reg H)) (r : Reg H) :
    accepted (rs ++ [r]) =
      if ∃ r' ∈ accepted rs, Conflict r' r then accepted rs else accepted rs ++ [r] := by
  simp only [accepted, List.foldl_append, List.foldl_cons, List.foldl_nil]
  rfl

theorem Spec.Conflict.symm {r r' : Reg H} (h : Conflict r r') : Conflict r' r := ⟨h.1.symm, h.2.symm⟩

theorem accept_of_conflictFree {rs T : List (Reg H)} (h : ConflictFree (T ++ rs)) :
    rs.foldl accept T = T ++ rs := by
  induction rs generalizing T with
  | nil => simp
  | cons a rs ih =>
    have hn : ¬ ∃ r' ∈ T, Conflict r' a := by
      rintro ⟨r', hr', hc⟩
      exact (List.pairwise_append.1 h).2.2 r' hr' a (List.mem_cons_self ..) hc
    rw [List.foldl_cons, accept, if_neg hn]
    rw [ih (by simpa using h)]
    simp

theorem accepted_of_conflictFree {rs : List (Reg H)} (h : ConflictFree rs) : accepted rs = rs :=
  accept_of_conflictFree (T := []) (rs := rs) h

theorem accept_conflictFree {rs T : List (Reg H)} (h : ConflictFree T) :
    ConflictFree (rs.foldl accept T) := by
  induction rs generalizing T with
  | nil => exact h
  | cons a rs ih =>
    apply ih
    unfold accept
    split
    · exact h
    · rename_i hn
      refine List.pairwise_append.2 ⟨h, List.pairwise_singleton _ _, ?_⟩
      intro r hr b hb
      simp only [List.mem_singleton] at hb
      subst hb
      exact fun hc => hn ⟨r, hr, hc⟩

theorem accepted_conflictFree (rs : List (Reg H)) : ConflictFree (accepted rs) :=
  accept_conflictFree (T := []) List.Pairwise.nil

theorem after_conflictFree {T : List (Reg H)} (h : ConflictFree T) (s : Seg) :
    ConflictFree (after s T) := by
  unfold ConflictFree after
  rw [List.pairwise_filterMap]
  refine h.imp ?_
  intro a b hab x hx y hy hc
  cases hea : a.entry with
  | nil => simp [hea] at hx
  | cons sa ea =>
    cases heb : b.entry with
    | nil => simp [heb] at hy
    | cons sb eb =>
      simp only [hea] at hx
      simp only [heb] at hy
      split at hx
      · split at hy
        · rename_i h1 h2
          cases hx; cases hy
          subst h1
          exact hab ⟨hc.1, by rw [hea, heb, h2]; exact congrArg _ hc.2⟩
        · cases hy
      · cases hx

theorem find?_perm {α : Type} {p : α → Bool} {l l' : List α} (hp : l.Perm l')
    (hu : l.Pairwise fun a b => ¬ (p a = true ∧ p b = true)) : l.find? p = l'.find? p := by
  induction hp with
  | nil => rfl
  | cons x _ ih =>
    simp only [List.find?_cons]
    cases p x
    · exact ih (List.pairwise_cons.1 hu).2
    · rfl
  | swap x y l =>
    have := (List.pairwise_cons.1 hu).1 x (List.mem_cons_self ..)
    simp only [List.find?_cons]
    cases hx : p x <;> cases hy : p y <;> simp_all
  | trans h1 h2 ih1 ih2 =>
    rw [ih1 hu, ih2]
    exact h1.pairwise hu (fun h c => h ⟨c.2, c.1⟩)

theorem dispatch_perm {T T' : List (Reg H)} (hp : T.Perm T') (hc : ConflictFree T)
    (m : Method) (path : List Str) : dispatch m path T = dispatch m path T' := by
  induction path generalizing T T' with
  | nil =>
    simp only [dispatch]
    rw [find?_perm hp]
    refine List.Pairwise.imp ?_ hc
    intro a b hab h
    simp only [decide_eq_true_eq] at h
    exact hab ⟨h.1.2.trans h.2.2.symm, h.1.1.trans h.2.1.symm⟩
  | cons p ps ih =>
    have h1 : (after (.val p) T).Perm (after (.val p) T') := hp.filterMap _
    have h2 : (after .var T).Perm (after .var T') := hp.filterMap _
    have e1 : after (.val p) T = [] ↔ after (.val p) T' = [] :=
      ⟨fun h => (h ▸ h1).nil_eq.symm, fun h => (h ▸ h1).eq_nil⟩
    have e2 : after .var T = [] ↔ after .var T' = [] :=
      ⟨fun h => (h ▸ h2).nil_eq.symm, fun h => (h ▸ h2).eq_nil⟩
    simp only [dispatch, ne_eq, e1, e2, ih h1 (after_conflictFree hc _),
      ih h2 (after_conflictFree hc _)]

theorem shadowed_cons {rs : List (Reg H)} {s : Seg} {e : EntryPoint} {p : Str} {ps : List Str}
    (h : Shadowed (after s rs) e ps) : Shadowed rs (s :: e) (p :: ps) := by
  obtain ⟨pre, suf, q, h1, h2, r, hr, h3⟩ := h
  refine ⟨s :: pre, suf, q, by simp [h1], by simpa using h2, _, mem_after.1 hr, ?_⟩
  simpa using h3

theorem conflict_of_mem {T : List (Reg H)} (hc : ConflictFree T) {a b : Reg H} (ha : a ∈ T)
    (hb : b ∈ T) (h : Conflict a b) : a = b := by
  induction T with
  | nil => cases ha
  | cons x T ih =>
    have hx := List.pairwise_cons.1 hc
    rcases List.mem_cons.1 ha with rfl | ha'
    · rcases List.mem_cons.1 hb with rfl | hb'
      · rfl
      · exact absurd h (hx.1 _ hb')
    · rcases List.mem_cons.1 hb with rfl | hb'
      · exact absurd h.symm (hx.1 _ ha')
      · exact ih hx.2 ha' hb'

/-- The dispatch rule, declaratively. -/
theorem dispatch_ok_iff {T : List (Reg H)} (hc : ConflictFree T) {m : Method} {path : List Str}
    {h : H} :
    dispatch m path T = .ok h ↔
      ∃ r ∈ T, r.handler = h ∧ r.method = m ∧ Matches r.entry path ∧
        ¬ Shadowed T r.entry path := by
  induction path generalizing T with
  | nil =>
    simp only [dispatch]
    constructor
    · intro hd
      split at hd
      · rename_i r hr
        have h1 := List.mem_of_find?_eq_some hr
        have h2 := List.find?_some hr
        simp only [decide_eq_true_eq] at h2
        cases hd
        refine ⟨r, h1, rfl, h2.2, h2.1 ▸ .nil, ?_⟩
        rintro ⟨pre, suf, q, h3, h4, -⟩
        simp at h4
      · cases hd
    · rintro ⟨r, hr, hh, hm, hmt, -⟩
      have he : r.entry = [] := by
        generalize r.entry = e at hmt; cases hmt; rfl
      cases hf : T.find? fun r => decide (r.entry = [] ∧ r.method = m) with
      | none =>
        have := List.find?_eq_none.1 hf r hr
        simp [he, hm] at this
      | some r' =>
        have h1 := List.mem_of_find?_eq_some hf
        have h2 := List.find?_some hf
        simp only [decide_eq_true_eq] at h2
        by_cases heq : r = r'
        · simp [← heq, hh]
        · exfalso
          exact heq (conflict_of_mem hc hr h1 ⟨hm.trans h2.2.symm, he.trans h2.1.symm⟩)
  | cons p ps ih =>
    simp only [dispatch]
    constructor
    · intro hd
      split at hd
      · rename_i hv
        obtain ⟨r, hr, h1, h2, h3, h4⟩ := (ih (after_conflictFree hc _)).1 hd
        refine ⟨_, mem_after.1 hr, h1, h2, .cons rfl h3, ?_⟩
        rintro ⟨pre, suf, q, e1, e2, r', hr', e3⟩
        cases pre with
        | nil => simp at e1
        | cons a pre =>
          simp only [List.cons_append, List.cons.injEq] at e1
          obtain ⟨rfl, e1⟩ := e1
          obtain ⟨x, e3⟩ := e3
          refine h4 ⟨pre, suf, q, e1, by simpa using e2,
            { r' with entry := pre ++ [Seg.val q] ++ x }, ?_, List.prefix_append ..⟩
          rw [mem_after]
          have : Seg.val p :: (pre ++ [Seg.val q] ++ x) = r'.entry := by simpa using e3
          simp only [this]; exact hr'
      · rename_i hv
        split at hd
        · obtain ⟨r, hr, h1, h2, h3, h4⟩ := (ih (after_conflictFree hc _)).1 hd
          refine ⟨_, mem_after.1 hr, h1, h2, .cons trivial h3, ?_⟩
          rintro ⟨pre, suf, q, e1, e2, r', hr', e3⟩
          cases pre with
          | nil =>
            simp at e2
            subst e2
            exact hv (after_ne_nil.2 ⟨r', hr', by simpa using e3⟩)
          | cons a pre =>
            simp only [List.cons_append, List.cons.injEq] at e1
            obtain ⟨rfl, e1⟩ := e1
            obtain ⟨x, e3⟩ := e3
            refine h4 ⟨pre, suf, q, e1, by simpa using e2,
              { r' with entry := pre ++ [Seg.val q] ++ x }, ?_, List.prefix_append ..⟩
            rw [mem_after]
            have : Seg.var :: (pre ++ [Seg.val q] ++ x) = r'.entry := by simpa using e3
            simp only [this]; exact hr'
        · cases hd
    · rintro ⟨r, hr, hh, hm, hmt, hns⟩
      cases hre : r.entry with
      | nil => rw [hre] at hmt; cases hmt
      | cons s e =>
        rw [hre] at hmt hns
        cases hmt with
        | cons hs hmt =>
        have hmem : ({ r with entry := e } : Reg H) ∈ after s T := by
          rw [mem_after]
          have : ({ r with entry := s :: e } : Reg H) = r := by rw [← hre]
          simpa [this] using hr
        have hne : after s T ≠ [] := List.ne_nil_of_mem hmem
        have hgoal : dispatch m ps (after s T) = .ok h :=
          (ih (after_conflictFree hc _)).2
            ⟨_, hmem, hh, hm, hmt, fun hsh => hns (shadowed_cons hsh)⟩
        cases s with
        | val c =>
          have hs : c = p := hs
          subst hs
          rw [if_pos hne]; exact hgoal
        | var =>
          have : after (.val p) T = [] := by
            by_contra hv
            obtain ⟨r', hr', h'⟩ := after_ne_nil.1 hv
            exact hns ⟨[], e, p, rfl, rfl, r', hr', by simpa using h'⟩
          rw [if_neg (by simp [this]), if_pos hne]
          exact hgoal

theorem shadowed_accepted {rs : List (Reg H)} {e : EntryPoint} {path : List Str} :
    Shadowed (accepted rs) e path ↔ Shadowed rs e path := by
  constructor
  · rintro ⟨pre, suf, q, h1, h2, r, hr, h3⟩
    exact ⟨pre, suf, q, h1, h2, r, mem_of_mem_accepted hr, h3⟩
  · rintro ⟨pre, suf, q, h1, h2, r, hr, h3⟩
    obtain ⟨r', hr', hc⟩ := accepted_covers hr
    exact ⟨pre, suf, q, h1, h2, r', hr', hc.2 ▸ h3⟩

end Htrpc
