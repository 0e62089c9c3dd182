import Verif.Spec.Deploy
import Verif.Props.Routing
import Verif.Spec.Server

namespace Htrpc
open Spec
variable {H : Type}

theorem after_append (s : Seg) (T T' : List (Reg H)) : after s (T ++ T') = after s T ++ after s T' := by
  simp [after]

theorem after_one (s s' : Seg) (r : Reg H) (e : EntryPoint) (he : r.entry = s' :: e) :
    after s [r] = if s' = s then [{ r with entry := e }] else [] := by
  simp only [after, List.filterMap_cons, List.filterMap_nil, he]
  split <;> simp_all

theorem after_one_nil (s : Seg) (r : Reg H) (he : r.entry = []) : after s [r] = [] := by
  simp [after, he]

theorem prefix_after {s : Seg} {T : List (Reg H)} {pre : EntryPoint} :
    (∃ r ∈ T, (s :: pre) <+: r.entry) ↔ ∃ r ∈ after s T, pre <+: r.entry := by
  constructor
  · rintro ⟨⟨m, e, h⟩, hr, x, rfl⟩
    exact ⟨⟨m, pre ++ x, h⟩, mem_after.2 hr, x, rfl⟩
  · rintro ⟨r, hr, h⟩
    exact ⟨_, mem_after.1 hr, by simpa using h⟩

theorem shadowed_cons_iff {T : List (Reg H)} {s : Seg} {e : EntryPoint} {p : Str} {ps : List Str} :
    Shadowed T (s :: e) (p :: ps) ↔
      s = .var ∧ after (.val p) T ≠ [] ∨ Shadowed (after s T) e ps := by
  constructor
  · rintro ⟨pre, suf, q, h1, h2, h3⟩
    cases pre with
    | nil =>
      simp only [List.nil_append, List.cons.injEq] at h1
      simp only [List.length_nil, List.getElem?_cons_zero, Option.some.injEq] at h2
      subst h2
      exact .inl ⟨h1.1, after_ne_nil.2 (by simpa using h3)⟩
    | cons a pre =>
      simp only [List.cons_append, List.cons.injEq] at h1
      obtain ⟨rfl, h1⟩ := h1
      exact .inr ⟨pre, suf, q, h1, by simpa using h2, prefix_after.1 h3⟩
  · rintro (⟨rfl, h⟩ | h)
    · obtain ⟨r, hr, h⟩ := after_ne_nil.1 h
      exact ⟨[], e, p, rfl, rfl, r, hr, by simpa using h⟩
    · exact shadowed_cons h

theorem not_shadowed_nil {T : List (Reg H)} {path : List Str} : ¬ Shadowed T [] path := by
  rintro ⟨pre, suf, q, h1, -⟩
  simp at h1

theorem captures_nil {T : List (Reg H)} {path : List Str} : ¬ Captures T [] path := by
  rintro ⟨pre, h1, h2, -⟩
  exact h1 (by simpa using h2)

theorem captures_path_nil {T : List (Reg H)} {e : EntryPoint} : ¬ Captures T e [] := by
  rintro ⟨pre, h1, -, h3, -⟩
  cases pre with
  | nil => exact h1 rfl
  | cons s pre => rw [List.take_nil] at h3; cases h3

theorem captures_cons {T : List (Reg H)} {s : Seg} {e : EntryPoint} {p : Str} {ps : List Str} :
    Captures T (s :: e) (p :: ps) ↔ SegMatches s p ∧ ¬ (s = .var ∧ after (.val p) T ≠ []) ∧
      (after s T = [] ∨ Captures (after s T) e ps) := by
  constructor
  · rintro ⟨pre, h1, h2, h3, h4, h5⟩
    cases pre with
    | nil => exact absurd rfl h1
    | cons a pre =>
      obtain ⟨rfl, h2'⟩ := List.cons_prefix_cons.1 h2
      rw [shadowed_cons_iff, not_or] at h5
      rw [List.length_cons, List.take_succ_cons] at h3
      cases h3 with
      | cons hs hm =>
        refine ⟨hs, h5.1, ?_⟩
        by_cases hp : pre = []
        · subst hp
          left
          by_contra hne
          obtain ⟨r, hr, h⟩ := after_ne_nil.1 hne
          exact h4 r hr h
        · right
          refine ⟨pre, hp, h2', hm, fun r hr h => ?_, h5.2⟩
          obtain ⟨r', hr', h'⟩ := prefix_after.2 ⟨r, hr, h⟩
          exact h4 r' hr' h'
  · rintro ⟨hs, hv, h | ⟨pre, h1, h2, h3, h4, h5⟩⟩
    · refine ⟨[s], by simp, by simp, .cons hs .nil, fun r hr hp => ?_, ?_⟩
      · exact after_ne_nil.2 ⟨r, hr, hp⟩ h
      · rw [shadowed_cons_iff, not_or]
        exact ⟨hv, not_shadowed_nil⟩
    · refine ⟨s :: pre, by simp, List.cons_prefix_cons.2 ⟨rfl, h2⟩, .cons hs h3, fun r hr hp => ?_, ?_⟩
      · obtain ⟨r', hr', h'⟩ := prefix_after.1 ⟨r, hr, hp⟩
        exact h4 r' hr' h'
      · rw [shadowed_cons_iff, not_or]
        exact ⟨hv, h5⟩

theorem matches_cons {s : Seg} {e : EntryPoint} {p : Str} {ps : List Str} :
    Matches (s :: e) (p :: ps) ↔ SegMatches s p ∧ Matches e ps :=
  ⟨fun h => by cases h with | cons a b => exact ⟨a, b⟩, fun h => .cons h.1 h.2⟩

theorem endsInside_cons {s : Seg} {e : EntryPoint} {p : Str} {ps : List Str} :
    EndsInside (s :: e) (p :: ps) ↔ SegMatches s p ∧ EndsInside e ps := by
  constructor
  · rintro ⟨pre, h1, h2⟩
    cases pre with
    | nil => cases h2
    | cons a pre =>
      obtain ⟨rfl, h1'⟩ := List.cons_prefix_cons.1 h1
      obtain ⟨h3, h4⟩ := matches_cons.1 h2
      exact ⟨h3, pre, h1', h4⟩
  · rintro ⟨h1, pre, h2, h3⟩
    exact ⟨s :: pre, List.cons_prefix_cons.2 ⟨rfl, h2⟩, .cons h1 h3⟩

theorem dispatch_one (r : Reg H) (m : Method) (path : List Str) :
    Alone r m path (dispatch m path [r]) := by
  induction path generalizing r with
  | nil =>
    simp only [dispatch, List.find?_cons, List.find?_nil]
    have hE : EndsInside r.entry [] := ⟨[], List.nil_prefix, .nil⟩
    refine ⟨?_, ?_, fun h => absurd hE h⟩
    · rintro ⟨h1, h2⟩
      have : r.entry = [] := by
        generalize r.entry = e at h2
        cases h2; rfl
      simp [this, h1]
    · intro h _
      have : ¬ (r.entry = [] ∧ r.method = m) := fun hh => h ⟨hh.2, hh.1 ▸ .nil⟩
      simp [this]
  | cons p ps ih =>
    cases he : r.entry with
    | nil =>
      have h1 : dispatch m (p :: ps) [r] = .error .notFound := by
        simp [dispatch, after_one_nil _ _ he]
      rw [h1]
      refine ⟨fun h => ?_, fun _ h => ?_, fun _ => rfl⟩
      · have := h.2; rw [he] at this; cases this
      · obtain ⟨pre, h2, h3⟩ := h
        rw [he, List.prefix_nil] at h2
        subst h2
        cases h3
    | cons s e =>
      have ih := ih { r with entry := e }
      have hgo : ∀ hs : SegMatches s p, Alone r m (p :: ps) (dispatch m ps [{ r with entry := e }]) := by
        intro hs
        refine ⟨fun h => ?_, fun h h' => ?_, fun h => ?_⟩
        · rw [he, matches_cons] at h
          exact ih.1 ⟨h.1, h.2.2⟩
        · rw [he, endsInside_cons] at h'
          rw [he, matches_cons] at h
          exact ih.2.1 (fun hh => h ⟨hh.1, hs, hh.2⟩) h'.2
        · rw [he, endsInside_cons] at h
          exact ih.2.2 fun hh => h ⟨hs, hh⟩
      rw [dispatch, after_one _ _ _ _ he, after_one _ _ _ _ he]
      cases s with
      | var => simpa using hgo trivial
      | val c =>
        by_cases hc : c = p
        · subst hc
          simpa using hgo rfl
        · have h1 : ¬ (Seg.val c = Seg.val p) := fun h => hc (Seg.val.inj h)
          have h2 : ¬ (Seg.val c = Seg.var) := fun h => nomatch h
          simp only [h1, h2, if_false, ne_eq, not_true_eq_false]
          refine ⟨fun h => ?_, fun _ h => ?_, fun _ => rfl⟩
          · rw [he, matches_cons] at h; exact absurd h.2.1 hc
          · rw [he, endsInside_cons] at h; exact absurd h.1 hc

/-- What one more registration at the end of the table changes. -/
theorem dispatch_add (T : List (Reg H)) (r : Reg H) (m : Method) (path : List Str) :
    (Captures T r.entry path → Alone r m path (dispatch m path (T ++ [r]))) ∧
    (¬ Captures T r.entry path →
      ¬ (r.method = m ∧ Matches r.entry path ∧ ¬ Shadowed T r.entry path) →
      dispatch m path (T ++ [r]) = dispatch m path T) := by
  induction path generalizing T r with
  | nil =>
    refine ⟨fun h => absurd h captures_path_nil, fun _ h => ?_⟩
    have : ¬ (r.entry = [] ∧ r.method = m) := fun hh =>
      h ⟨hh.2, hh.1 ▸ .nil, hh.1 ▸ not_shadowed_nil⟩
    simp [dispatch, List.find?_append, this]
  | cons p ps ih =>
    cases he : r.entry with
    | nil =>
      refine ⟨fun h => absurd h captures_nil, fun _ _ => ?_⟩
      simp [dispatch, after_append, after_one_nil _ _ he]
    | cons s e =>
      have hl : ∀ {x}, SegMatches s p → Alone { r with entry := e } m ps x → Alone r m (p :: ps) x := by
        intro x hs ih
        refine ⟨fun h => ?_, fun h h' => ?_, fun h => ?_⟩
        · rw [he, matches_cons] at h
          exact ih.1 ⟨h.1, h.2.2⟩
        · rw [he, endsInside_cons] at h'
          rw [he, matches_cons] at h
          exact ih.2.1 (fun hh => h ⟨hh.1, hs, hh.2⟩) h'.2
        · rw [he, endsInside_cons] at h
          exact ih.2.2 fun hh => h ⟨hs, hh⟩
      -- the step into the branch of the new entry point
      have key : SegMatches s p → ¬ (s = .var ∧ after (.val p) T ≠ []) →
          dispatch m (p :: ps) (T ++ [r]) = dispatch m ps (after s T ++ [{ r with entry := e }]) ∧
          (after s T ≠ [] → dispatch m (p :: ps) T = dispatch m ps (after s T)) := by
        intro hs hv
        rw [dispatch, dispatch, after_append, after_append, after_one _ _ _ _ he,
          after_one _ _ _ _ he]
        cases s with
        | val c =>
          have : c = p := hs
          subst this
          refine ⟨by simp, fun hne => by simp [hne]⟩
        | var =>
          have hnil : after (.val p) T = [] := by
            by_contra h; exact hv ⟨rfl, h⟩
          refine ⟨by simp [hnil], fun hne => by simp [hnil, hne]⟩
      have ih := ih (after s T) { r with entry := e }
      refine ⟨fun h => ?_, fun h h' => ?_⟩
      · obtain ⟨hs, hv, hor⟩ := captures_cons.1 h
        rw [(key hs hv).1]
        rcases hor with hnil | hc
        · rw [hnil]
          exact hl hs (dispatch_one _ _ _)
        · exact hl hs (ih.1 hc)
      · by_cases hs : SegMatches s p ∧ ¬ (s = .var ∧ after (.val p) T ≠ [])
        · obtain ⟨hs, hv⟩ := hs
          have hne : after s T ≠ [] := fun hh => h (captures_cons.2 ⟨hs, hv, .inl hh⟩)
          rw [(key hs hv).1, (key hs hv).2 hne]
          refine ih.2 (fun hh => h (captures_cons.2 ⟨hs, hv, .inr hh⟩)) fun hh => h' ?_
          refine ⟨hh.1, .cons hs hh.2.1, ?_⟩
          rw [shadowed_cons_iff, not_or]
          exact ⟨hv, hh.2.2⟩
        · rw [dispatch, dispatch, after_append, after_append, after_one _ _ _ _ he,
            after_one _ _ _ _ he]
          cases s with
          | val c =>
            have : ¬ (Seg.val c = Seg.val p) := fun hh => hs ⟨Seg.val.inj hh, by simp⟩
            simp [this]
          | var =>
            have : after (.val p) T ≠ [] := by
              by_contra hh; exact hs ⟨trivial, fun x => x.2 hh⟩
            simp [this]

theorem captures_accepted {rs : List (Reg H)} {e : EntryPoint} {path : List Str} :
    Captures (accepted rs) e path ↔ Captures rs e path := by
  have hp : ∀ pre : EntryPoint, (∀ r ∈ accepted rs, ¬ pre <+: r.entry) ↔ ∀ r ∈ rs, ¬ pre <+: r.entry := by
    intro pre
    constructor
    · intro h r hr hh
      obtain ⟨r', hr', hc⟩ := accepted_covers hr
      exact h r' hr' (hc.2 ▸ hh)
    · exact fun h r hr => h r (mem_of_mem_accepted hr)
  unfold Captures
  simp only [hp, shadowed_accepted]

theorem not_captures_of_conflict {rs : List (Reg H)} {r : Reg H} (h : ∃ r' ∈ rs, Conflict r' r)
    (path : List Str) : ¬ Captures rs r.entry path := by
  rintro ⟨pre, -, h2, -, h4, -⟩
  obtain ⟨r', hr', hc⟩ := h
  exact h4 r' hr' (hc.2 ▸ h2)

/-- **C100.** Registering one more service changes the answer to a request only if its path is led
into a part of the table that is there only because of the new entry point, or if the request is for
the new service. -/
theorem C100_unaffected (rs : List (Reg H)) (r : Reg H) (m : Method) (path : List Str)
    (hc : ¬ Captures rs r.entry path)
    (ho : ¬ (r.method = m ∧ Matches r.entry path ∧ ¬ Shadowed rs r.entry path)) :
    (registerAll (rs ++ [r]) Trie.empty).1.route m path =
      (registerAll rs Trie.empty).1.route m path := by
  rw [C02_exact_dispatch, C02_exact_dispatch, accepted_append]
  split
  · rfl
  · exact (dispatch_add (accepted rs) r m path).2 (by rwa [captures_accepted])
      (by rwa [shadowed_accepted])

/-- **C100.** A request whose path is led there is answered by the new service or not at all, whatever
answered it before: with 405 if the path ends at a beginning of the new entry point, else with 404. -/
theorem C100_captured (rs : List (Reg H)) (r : Reg H) (m : Method) (path : List Str)
    (hc : Captures rs r.entry path) :
    Alone r m path ((registerAll (rs ++ [r]) Trie.empty).1.route m path) := by
  rw [C02_exact_dispatch, accepted_append]
  have h1 := (captures_accepted (rs := rs)).2 hc
  split
  · rename_i h
    exact absurd h1 (not_captures_of_conflict h path)
  · exact (dispatch_add (accepted rs) r m path).1 h1

/-- Two entry points that match the same path part where one has a constant and the other a
variable. -/
theorem part_of_matches {e e' : EntryPoint} {path : List Str} (h : Matches e path)
    (h' : Matches e' path) (hne : e ≠ e') :
    ∃ pre p, path[pre.length]? = some p ∧
      ((∃ suf suf', e = pre ++ .var :: suf ∧ e' = pre ++ .val p :: suf') ∨
        ∃ suf suf', e' = pre ++ .var :: suf ∧ e = pre ++ .val p :: suf') := by
  induction h generalizing e' with
  | nil => cases h'; exact absurd rfl hne
  | @cons s e p ps hs _ ih =>
    cases h' with
    | @cons s' e' _ _ hs' hm' =>
      by_cases hss : s = s'
      · subst hss
        obtain ⟨pre, q, h1, h2⟩ := ih hm' fun h => hne (by rw [h])
        refine ⟨s :: pre, q, by simpa using h1, ?_⟩
        rcases h2 with ⟨suf, suf', rfl, rfl⟩ | ⟨suf, suf', rfl, rfl⟩
        · exact .inl ⟨suf, suf', rfl, rfl⟩
        · exact .inr ⟨suf, suf', rfl, rfl⟩
      · refine ⟨[], p, rfl, ?_⟩
        cases s with
        | var =>
          cases s' with
          | var => exact absurd rfl hss
          | val c =>
            have : c = p := hs'
            subst this
            exact .inl ⟨e, e', rfl, rfl⟩
        | val c =>
          have : c = p := hs
          subst this
          cases s' with
          | var => exact .inr ⟨e', e, rfl, rfl⟩
          | val c' =>
            have : c' = c := hs'
            subst this
            exact absurd rfl hss

theorem matches_prefix {pre suf : EntryPoint} {path : List Str} (h : Matches (pre ++ suf) path) :
    Matches pre (path.take pre.length) := by
  induction pre generalizing path with
  | nil => exact .nil
  | cons s pre ih =>
    rw [List.cons_append] at h
    cases h with
    | cons hs hm => exact .cons hs (ih hm)

/-- **C100.** The new service gets the requests that its entry point matches, unless a constant of the
others leads them elsewhere; and it takes none from another service unless their path is led into the
new part of the table. -/
theorem C100_own (rs : List (Reg H)) (r : Reg H) (path : List Str)
    (hm : Matches r.entry path) (hs : ¬ Shadowed rs r.entry path) (hn : ∀ r' ∈ rs, ¬ Conflict r' r) :
    (registerAll (rs ++ [r]) Trie.empty).1.route r.method path = .ok r.handler ∧
      (¬ Captures rs r.entry path →
        ∀ h, (registerAll rs Trie.empty).1.route r.method path ≠ .ok h) := by
  have hs' : ¬ Shadowed (rs ++ [r]) r.entry path := by
    rintro ⟨pre, suf, q, h1, h2, r', hr', h3⟩
    rcases List.mem_append.1 hr' with hr' | hr'
    · exact hs ⟨pre, suf, q, h1, h2, r', hr', h3⟩
    · rw [List.mem_singleton] at hr'
      subst hr'
      obtain ⟨x, hx⟩ := h3
      rw [h1, List.append_assoc] at hx
      have := List.append_cancel_left hx
      simp at this
  constructor
  · rw [C02_dispatch_iff]
    refine ⟨r, ?_, rfl, rfl, hm, hs'⟩
    rw [accepted_append, if_neg]
    · simp
    · rintro ⟨r', hr', hc⟩
      exact hn r' (mem_of_mem_accepted hr') hc
  · intro hc h hh
    rw [C02_dispatch_iff] at hh
    obtain ⟨r', hr', -, h2, h3, h4⟩ := hh
    have hr' := mem_of_mem_accepted hr'
    refine hn r' hr' ⟨h2, ?_⟩
    by_contra hne
    obtain ⟨pre, p, h5, h6⟩ := part_of_matches h3 hm hne
    rcases h6 with ⟨suf, suf', e1, e2⟩ | ⟨suf, suf', e1, e2⟩
    · apply hc
      rw [e2, show pre ++ Seg.val p :: suf' = (pre ++ [.val p]) ++ suf' by simp] at hm ⊢
      refine ⟨pre ++ [.val p], by simp, List.prefix_append .., matches_prefix hm, fun a ha hp => ?_, ?_⟩
      · exact h4 ⟨pre, suf, p, e1, h5, a, ha, hp⟩
      · rintro ⟨pre', suf'', q, g1, g2, g3⟩
        refine hs ⟨pre', suf'' ++ suf', q, ?_, g2, g3⟩
        rw [e2, show pre ++ Seg.val p :: suf' = (pre ++ [.val p]) ++ suf' by simp, g1]
        simp
    · exact hs ⟨pre, suf, p, e1, h5, r', hr', by rw [e2]; exact ⟨suf', by simp⟩⟩

/-- **C100.** One more service on a server: every other request is judged as before. -/
theorem C100_server [FloatText] [UrlText] (cfg : ServerCfg) (s : Service) (h : ReqHead)
    (hu : ∀ t segs, parseTarget cfg.oracle h.target = some t → t.segs = some segs →
      ¬ Captures (cfg.services.map Service.reg) s.entry segs ∧
      ¬ (s.method = h.method ∧ Matches s.entry segs ∧
        ¬ Shadowed (cfg.services.map Service.reg) s.entry segs)) (x : Verdict) :
    Judged { cfg with services := cfg.services ++ [s] } h x ↔ Judged cfg h x := by
  have hd : ∀ t segs, parseTarget cfg.oracle h.target = some t → t.segs = some segs →
      dispatch h.method segs (table { cfg with services := cfg.services ++ [s] }) =
        dispatch h.method segs (table cfg) := by
    intro t segs h1 h2
    have := C100_unaffected (cfg.services.map Service.reg) s.reg h.method segs (hu t segs h1 h2).1
      (hu t segs h1 h2).2
    rw [C02_exact_dispatch, C02_exact_dispatch] at this
    simpa [table] using this
  constructor
  · intro hj
    cases hj with
    | noUrl h1 => exact .noUrl h1
    | noPath h1 h2 h3 => rw [hd _ _ h1 h2] at h3; exact .noPath h1 h2 h3
    | noMethod h1 h2 h3 => rw [hd _ _ h1 h2] at h3; exact .noMethod h1 h2 h3
    | undecodable h1 h2 h3 h4 => rw [hd _ _ h1 h2] at h3; exact .undecodable h1 h2 h3 h4
    | call h1 h2 h3 h4 => rw [hd _ _ h1 h2] at h3; exact .call h1 h2 h3 h4
  · intro hj
    cases hj with
    | noUrl h1 => exact .noUrl h1
    | noPath h1 h2 h3 => rw [← hd _ _ h1 h2] at h3; exact .noPath h1 h2 h3
    | noMethod h1 h2 h3 => rw [← hd _ _ h1 h2] at h3; exact .noMethod h1 h2 h3
    | undecodable h1 h2 h3 h4 => rw [← hd _ _ h1 h2] at h3; exact .undecodable h1 h2 h3 h4
    | call h1 h2 h3 h4 => rw [← hd _ _ h1 h2] at h3; exact .call h1 h2 h3 h4

section Examples

/-- `GET users/_`, `GET users/_/posts`. -/
private def usersTable : List (Reg Nat) :=
  [⟨.other 0, [.val ['u'], .var], 1⟩, ⟨.other 0, [.val ['u'], .var, .val ['p']], 2⟩]

/-- `C100_unaffected`: `GET users/_/friends` leaves `users/7` alone. -/
example : (registerAll (usersTable ++ [⟨.other 0, [.val ['u'], .var, .val ['f']], 3⟩]) Trie.empty).1.route
    (.other 0) [['u'], ['7']] = .ok 1 := by
  rw [C100_unaffected]
  · rw [C02_exact_dispatch]; rfl
  · rintro ⟨pre, h1, ⟨x, h2⟩, h3, h4, -⟩
    match pre, h2 with
    | [], _ => exact h1 rfl
    | [a], h2 =>
      simp at h2
      exact h4 ⟨.other 0, [.val ['u'], .var], 1⟩ (by simp [usersTable]) (by simp [h2])
    | [a, b], h2 =>
      simp at h2
      exact h4 ⟨.other 0, [.val ['u'], .var], 1⟩ (by simp [usersTable]) (by simp [h2])
    | a :: b :: c :: pre, h2 =>
      cases h3 with
      | cons _ h3 => cases h3 with
        | cons _ h3 => simp at h3; cases h3
  · rintro ⟨-, h, -⟩
    cases h with
    | cons _ h => cases h with
      | cons _ h => cases h

/-- `C100_captured`: `GET users/me/x` takes `users/me` away from `users/_`, although it does not
answer it. -/
example : (registerAll usersTable Trie.empty).1.route (.other 0) [['u'], ['m']] = .ok 1 ∧
    (registerAll (usersTable ++ [⟨.other 0, [.val ['u'], .val ['m'], .val ['x']], 3⟩]) Trie.empty).1.route
      (.other 0) [['u'], ['m']] = .error .methodNotAllowed := by
  refine ⟨by rw [C02_exact_dispatch]; rfl, ?_⟩
  refine (C100_captured usersTable ⟨.other 0, [.val ['u'], .val ['m'], .val ['x']], 3⟩ (.other 0)
    [['u'], ['m']] ⟨[.val ['u'], .val ['m']], by simp, by simp, .cons rfl (.cons rfl .nil), ?_, ?_⟩).2.1
    ?_ ⟨[.val ['u'], .val ['m']], by simp, .cons rfl (.cons rfl .nil)⟩
  · simp [usersTable]
  · rintro ⟨pre, suf, q, h1, -⟩
    have := congrArg (Seg.var ∈ ·) h1
    simp at this
  · rintro ⟨-, h⟩
    cases h with
    | cons _ h => cases h with
      | cons _ h => cases h

/-- `C100_own`: `POST users/_` beside `GET users/_`. -/
example : (registerAll (usersTable ++ [⟨.other 1, [.val ['u'], .var], 3⟩]) Trie.empty).1.route
    (.other 1) [['u'], ['7']] = .ok 3 := by
  refine (C100_own usersTable ⟨.other 1, [.val ['u'], .var], 3⟩ [['u'], ['7']]
    (.cons rfl (.cons trivial .nil)) ?_ (by simp [usersTable, Conflict])).1
  rintro ⟨pre, suf, q, h1, h2, r, hr, h3⟩
  match pre, h1 with
  | [], h1 => simp at h1
  | [a], h1 =>
    simp at h1 h2
    subst h2
    simp [usersTable] at hr
    rcases hr with rfl | rfl <;> simp at h3
  | a :: b :: pre, h1 => simp at h1

end Examples

end Htrpc
