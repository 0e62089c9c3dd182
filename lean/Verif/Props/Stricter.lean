/-
C150: what decides which acquisitions a pool rejects.
-/
import Verif.Spec.Stricter
import Verif.Props.Pool

namespace Htrpc
open Spec

theorem rejections_cons (o : PoolOutput) (os : List PoolOutput) :
    rejections (o :: os) = rejections [o] ++ rejections os := by
  rw [rejections, rejections, rejections, ← List.filterMap_append]; rfl

theorem run_rejections (size : Nat) (e : PoolEvent) (evs : List PoolEvent) (s : IdlePool) :
    rejections (s.run size (e :: evs)).1 =
      rejections [(s.step size e).1] ++ rejections ((s.step size e).2.run size evs).1 := rejections_cons _ _

/-- Whether an acquisition is rejected. -/
theorem acquire_rejections (size : Nat) (s : IdlePool) (a : Addr) (now : Time) :
    rejections [(s.step size (.acquire a now)).1] = [decide (∃ u, s.suspended a = some u ∧ now < u)] := by
  simp only [IdlePool.step]
  by_cases h : ∃ u, s.suspended a = some u ∧ now < u
  · rw [if_pos h, decide_eq_true h]; rfl
  · rw [if_neg h, decide_eq_false h]
    cases takeIdle a s.idle <;> rfl

theorem acquire_suspended (size : Nat) (s : IdlePool) (a b : Addr) (now : Time) :
    (s.step size (.acquire a now)).2.suspended b =
      if (∃ u, s.suspended a = some u ∧ now < u) ∨ b ≠ a then s.suspended b else none := by
  simp only [IdlePool.step]
  by_cases h : ∃ u, s.suspended a = some u ∧ now < u
  · rw [if_pos h, if_pos (.inl h)]
  · rw [if_neg h]
    have hs : ∀ x : Option (Conn × List (Addr × Conn)), (match x with
        | some (c, idle) => ((.reply (.ready c), { s with
            suspended := fun b => if b = a then none else s.suspended b, idle }) : PoolOutput × IdlePool)
        | none => (.reply (.connecting a), { s with
            suspended := fun b => if b = a then none else s.suspended b })).2.suspended b =
          if b = a then none else s.suspended b := by
      intro x; cases x <;> rfl
    refine (hs _).trans ?_
    by_cases hb : b = a
    · rw [if_pos hb, if_neg (by simp [h, hb])]
    · rw [if_neg hb, if_pos (.inr hb)]

/-- Both pools have the same suspensions. -/
theorem same_rejections (size size' : Nat) (evs : List PoolEvent) {s s' : IdlePool}
    (h : s'.suspended = s.suspended) (hd : s'.duration = s.duration) :
    rejections (s'.run size' (withoutReturns evs)).1 = rejections (s.run size evs).1 := by
  induction evs generalizing s s' with
  | nil => rfl
  | cons e evs ih =>
    cases e with
    | release a c =>
      rw [run_rejections]
      refine (ih (s := (s.step size (.release a c)).2) (s' := s') h hd).trans ?_
      rfl
    | acquire a now =>
      change rejections (s'.run size' (.acquire a now :: withoutReturns evs)).1 = _
      rw [run_rejections, run_rejections, acquire_rejections, acquire_rejections, h]
      congr 1
      refine ih ?_ ?_
      · funext b
        rw [acquire_suspended, acquire_suspended, h]
      · rw [step_duration, step_duration, hd]
    | blacklist a t =>
      change rejections (s'.run size' (.blacklist a t :: withoutReturns evs)).1 = _
      rw [run_rejections, run_rejections]
      refine congrArg _ (ih ?_ hd)
      funext b
      simp only [IdlePool.step, h, hd]
    | setSuspended d =>
      change rejections (s'.run size' (.setSuspended d :: withoutReturns evs)).1 = _
      rw [run_rejections, run_rejections]
      exact congrArg _ (ih h rfl)

/-- **C150.** Which acquisitions are rejected depends neither on the size of the pool nor on the connections returned. -/
theorem C150_only_failures (size size' : Nat) (evs : List PoolEvent) (outs : List PoolOutput) (p : Pool)
    (hr : (Pool.withSize size).run evs = .ok (outs, p)) :
    ∃ outs' p', (Pool.withSize size').run (withoutReturns evs) = .ok (outs', p') ∧
      rejections outs' = rejections outs := by
  have hno := (C54_exactly size evs).1 ⟨outs, p, hr⟩
  obtain ⟨p1, h1⟩ := C54_pool_never_panics size evs hno
  rw [hr] at h1
  cases h1
  have hno' : NoOverflow (withoutReturns evs) := by
    refine ⟨Nat.lt_of_le_of_lt (List.Sublist.filter _ List.filter_sublist).length_le hno.1, ?_⟩
    have h2 := hno.2
    generalize 60000000000 = d at h2 ⊢
    clear hno hr
    induction evs generalizing d with
    | nil => trivial
    | cons e evs ih =>
      cases e with
      | acquire a t => exact ih d h2
      | release a c => exact ih d h2
      | setSuspended d' => exact ih d' h2
      | blacklist a t => exact ⟨h2.1, ih d h2.2⟩
  obtain ⟨p2, h2⟩ := C54_pool_never_panics size' _ hno'
  exact ⟨_, p2, h2, same_rejections size size' evs rfl rfl⟩

/-- Every suspension of the first pool is one of the second, which lasts as long or longer. -/
def Below (s s' : IdlePool) : Prop :=
  ∀ a u, s.suspended a = some u → ∃ u', s'.suspended a = some u' ∧ u ≤ u'

theorem below_acquire (size size' : Nat) {s s' : IdlePool} (h : Below s s') (a : Addr) (now : Time) :
    Within (rejections [(s.step size (.acquire a now)).1]) (rejections [(s'.step size' (.acquire a now)).1]) ∧
      Below (s.step size (.acquire a now)).2 (s'.step size' (.acquire a now)).2 := by
  have himp : (∃ u, s.suspended a = some u ∧ now < u) → ∃ u, s'.suspended a = some u ∧ now < u := by
    rintro ⟨u, hu, hn⟩
    obtain ⟨u', hu', hle⟩ := h a u hu
    exact ⟨u', hu', Nat.lt_of_lt_of_le hn hle⟩
  refine ⟨?_, fun b u hu => ?_⟩
  · rw [acquire_rejections, acquire_rejections]
    exact .cons (fun hx => decide_eq_true (himp (of_decide_eq_true hx))) .nil
  · rw [acquire_suspended] at hu ⊢
    by_cases hx : (∃ u, s.suspended a = some u ∧ now < u) ∨ b ≠ a
    · rw [if_pos hx] at hu
      rw [if_pos (hx.imp_left himp)]
      exact h b u hu
    · rw [if_neg hx] at hu
      cases hu

theorem within_append {l l' m m' : List Bool} (h : Within l l') (h' : Within m m') : Within (l ++ m) (l' ++ m') := by
  induction h with
  | nil => exact h'
  | cons hx _ ih => exact .cons hx ih

theorem below_longer (size size' : Nat) {evs evs' : List PoolEvent} (he : LongerSet evs evs') {s s' : IdlePool}
    (h : Below s s') (hd : s.duration ≤ s'.duration) :
    Within (rejections (s.run size evs).1) (rejections (s'.run size' evs').1) := by
  induction he generalizing s s' with
  | nil => exact .nil
  | @longer d d' l l' hdd _ ih =>
    rw [run_rejections, run_rejections]
    exact within_append .nil (ih h hdd)
  | same e _ ih =>
    rw [run_rejections, run_rejections]
    cases e with
    | acquire a now =>
      obtain ⟨h1, h2⟩ := below_acquire size size' h a now
      exact within_append h1 (ih h2 (by rw [step_duration, step_duration]; exact hd))
    | release a c => exact within_append .nil (ih h hd)
    | setSuspended d => exact within_append .nil (ih h (Nat.le_refl d))
    | blacklist a t =>
      refine within_append .nil (ih ?_ hd)
      intro b u hu
      simp only [IdlePool.step] at hu ⊢
      by_cases hb : b = a
      · rw [if_pos hb] at hu ⊢
        cases hu
        exact ⟨_, rfl, Nat.add_le_add_left hd t⟩
      · rw [if_neg hb] at hu ⊢
        exact h b u hu

/-- **C150.** With longer suspensions every acquisition is rejected that was rejected before. -/
theorem C150_longer (size size' : Nat) (evs evs' : List PoolEvent) (he : LongerSet evs evs')
    (outs outs' : List PoolOutput) (p p' : Pool) (hr : (Pool.withSize size).run evs = .ok (outs, p))
    (hr' : (Pool.withSize size').run evs' = .ok (outs', p')) : Within (rejections outs) (rejections outs') := by
  obtain ⟨p1, h1⟩ := C54_pool_never_panics size evs ((C54_exactly size evs).1 ⟨outs, p, hr⟩)
  obtain ⟨p2, h2⟩ := C54_pool_never_panics size' evs' ((C54_exactly size' evs').1 ⟨outs', p', hr'⟩)
  rw [hr] at h1
  rw [hr'] at h2
  cases h1
  cases h2
  exact below_longer size size' he (fun a u hu => nomatch hu) (Nat.le_refl _)

theorem below_more (size size' : Nat) {evs evs' : List PoolEvent} (he : MoreReports evs evs')
    (hset : ∀ d, .setSuspended d ∉ evs') (hclock : (clock evs').Pairwise (· ≤ ·)) {s s' : IdlePool}
    (h : Below s s') (hd : s.duration = s'.duration)
    (hpast : ∀ a u, s.suspended a = some u → ∀ t ∈ clock evs', u ≤ t + s.duration) :
    Within (rejections (s.run size evs).1) (rejections (s'.run size' evs').1) := by
  induction he generalizing s s' with
  | nil => exact .nil
  | @more a t l l' _ ih =>
    rw [run_rejections]
    change Within (rejections (s.run size l).1) ([] ++ _)
    rw [List.nil_append]
    have hc : clock (.blacklist a t :: l') = t :: clock l' := rfl
    rw [hc] at hclock hpast
    refine ih (fun d hm => hset d (.tail _ hm)) (List.pairwise_cons.1 hclock).2 ?_ hd
      fun b u hu t' ht => hpast b u hu t' (.tail _ ht)
    intro b u hu
    simp only [IdlePool.step]
    by_cases hb : b = a
    · rw [if_pos hb]
      exact ⟨_, rfl, hd ▸ hpast b u hu t (.head _)⟩
    · rw [if_neg hb]
      exact h b u hu
  | @same e l l' _ ih =>
    rw [run_rejections, run_rejections]
    have hset' : ∀ d, .setSuspended d ∉ l' := fun d hm => hset d (.tail _ hm)
    cases e with
    | acquire a now =>
      have hc : clock (.acquire a now :: l') = now :: clock l' := rfl
      rw [hc] at hclock hpast
      obtain ⟨h1, h2⟩ := below_acquire size size' h a now
      refine within_append h1 (ih hset' (List.pairwise_cons.1 hclock).2 h2
        (by rw [step_duration, step_duration]; exact hd) fun b u hu t' ht => ?_)
      rw [step_duration]
      rw [acquire_suspended] at hu
      split at hu
      · exact hpast b u hu t' (.tail _ ht)
      · cases hu
    | release a c => exact within_append .nil (ih hset' hclock h hd hpast)
    | setSuspended d => exact absurd (.head _) (hset d)
    | blacklist a t =>
      have hc : clock (.blacklist a t :: l') = t :: clock l' := rfl
      rw [hc] at hclock hpast
      refine within_append .nil (ih hset' (List.pairwise_cons.1 hclock).2 ?_ hd ?_)
      · intro b u hu
        simp only [IdlePool.step] at hu ⊢
        by_cases hb : b = a
        · rw [if_pos hb] at hu ⊢
          cases hu
          exact ⟨_, rfl, Nat.add_le_add_left (Nat.le_of_eq hd) t⟩
        · rw [if_neg hb] at hu ⊢
          exact h b u hu
      · intro b u hu t' ht
        simp only [IdlePool.step] at hu ⊢
        by_cases hb : b = a
        · rw [if_pos hb] at hu
          cases hu
          exact Nat.add_le_add_right ((List.pairwise_cons.1 hclock).1 t' ht) _
        · rw [if_neg hb] at hu
          exact hpast b u hu t' (.tail _ ht)

/-- **C150.** With a clock that does not go back and one duration, more reports of failures only lead to more
rejections. -/
theorem C150_more_reports (size size' d : Nat) (evs evs' : List PoolEvent) (he : MoreReports evs evs')
    (hset : ∀ d, .setSuspended d ∉ evs') (hclock : (clock evs').Pairwise (· ≤ ·))
    (outs outs' : List PoolOutput) (p p' : Pool)
    (hr : (Pool.withSize size).run (.setSuspended d :: evs) = .ok (outs, p))
    (hr' : (Pool.withSize size').run (.setSuspended d :: evs') = .ok (outs', p')) :
    Within (rejections outs) (rejections outs') := by
  obtain ⟨p1, h1⟩ := C54_pool_never_panics size _ ((C54_exactly size _).1 ⟨outs, p, hr⟩)
  obtain ⟨p2, h2⟩ := C54_pool_never_panics size' _ ((C54_exactly size' _).1 ⟨outs', p', hr'⟩)
  rw [hr] at h1
  rw [hr'] at h2
  cases h1
  cases h2
  rw [run_rejections, run_rejections]
  exact within_append .nil (below_more size size' he hset hclock (fun a u hu => nomatch hu) rfl
    fun a u hu => nomatch hu)

namespace StricterExamples

private def x : Addr := ⟨1, 80, 0⟩

/-- Without the condition on the clock a report can end a suspension: one with an earlier time. -/
example : ∃ outs outs' p p',
    (Pool.withSize 1).run [.setSuspended 10, .blacklist x 10, .acquire x 15] = .ok (outs, p) ∧
    (Pool.withSize 1).run [.setSuspended 10, .blacklist x 10, .blacklist x 1, .acquire x 15] = .ok (outs', p') ∧
    rejections outs = [true] ∧ rejections outs' = [false] := by
  obtain ⟨p, h⟩ := C54_pool_never_panics 1 [.setSuspended 10, .blacklist x 10, .acquire x 15] (by decide)
  obtain ⟨p', h'⟩ := C54_pool_never_panics 1
    [.setSuspended 10, .blacklist x 10, .blacklist x 1, .acquire x 15] (by decide)
  exact ⟨_, _, p, p', h, h', by decide, by decide⟩

/-- A second report prolongs a suspension. -/
example : MoreReports [.blacklist x 1, .acquire x 15] [.blacklist x 1, .blacklist x 10, .acquire x 15] ∧
    rejections (IdlePool.new.run 1 [.setSuspended 10, .blacklist x 1, .acquire x 15]).1 = [false] ∧
    rejections (IdlePool.new.run 1 [.setSuspended 10, .blacklist x 1, .blacklist x 10, .acquire x 15]).1 = [true] :=
  ⟨.same _ (.more _ _ (.same _ .nil)), by decide, by decide⟩

/-- A longer suspension. -/
example : LongerSet [.setSuspended 10, .blacklist x 1, .acquire x 15] [.setSuspended 20, .blacklist x 1, .acquire x 15] ∧
    rejections (IdlePool.new.run 1 [.setSuspended 20, .blacklist x 1, .acquire x 15]).1 = [true] :=
  ⟨.longer (by decide) (.same _ (.same _ .nil)), by decide⟩

end StricterExamples

end Htrpc
