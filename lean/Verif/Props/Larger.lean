/-
C141: a larger pool is no worse.
-/
import Verif.Spec.Larger
import Verif.Props.Pool
import Mathlib.Data.List.Forall2

namespace Htrpc
open Spec

/-- The addresses of idle connections. -/
def labels (s : IdlePool) : List Addr := s.idle.map Prod.fst

/-- The pool `l` of size `m` has all that the pool `s` of size `n` has, in the same order, and is not fuller in relation
to its size. -/
structure Bigger (D : Addr → Prop) (n m : Nat) (s l : IdlePool) : Prop where
  part : (labels s).Sublist (labels l)
  room : l.idle.length ≤ s.idle.length + (m - n)
  small : s.idle.length ≤ n
  large : l.idle.length ≤ m
  known : ∀ a ∈ labels l, D a
  suspended : l.suspended = s.suspended
  duration : l.duration = s.duration

/-- Among addresses that are told apart, the first connection to the address is taken, if there is one. -/
theorem takeIdle_labels {D : Addr → Prop} (hD : ∀ a b, D a → D b → SameHost a b → a = b) {a : Addr} (ha : D a)
    (l : List (Addr × Conn)) (hl : ∀ b ∈ l.map Prod.fst, D b) :
    match takeIdle a l with
    | some (_, l') => a ∈ l.map Prod.fst ∧ l'.map Prod.fst = (l.map Prod.fst).erase a
    | none => a ∉ l.map Prod.fst := by
  induction l with
  | nil => simp [takeIdle]
  | cons e l ih =>
    obtain ⟨b, c⟩ := e
    have hb : D b := hl b (by simp)
    have ih := ih fun x hx => hl x (List.mem_cons_of_mem _ hx)
    rw [takeIdle]
    by_cases hs : SameHost b a
    · have := hD b a hb ha hs
      subst this
      simp [hs]
    · have hne : b ≠ a := fun h => hs (h ▸ ⟨rfl, rfl⟩)
      rw [if_neg hs]
      cases ht : takeIdle a l with
      | none =>
        rw [ht] at ih
        simpa [Ne.symm hne] using ih
      | some r =>
        rw [ht] at ih
        obtain ⟨h1, h2⟩ := ih
        refine ⟨List.mem_cons_of_mem _ h1, ?_⟩
        simp only [List.map_cons]
        rw [List.erase_cons_tail (by simpa using hne), h2]

theorem bigger_step {D : Addr → Prop} (hD : ∀ a b, D a → D b → SameHost a b → a = b) {n m : Nat} (hnm : n ≤ m)
    {s l : IdlePool} (h : Bigger D n m s l) {e e' : PoolEvent} (he : anonymous e' = anonymous e)
    (hk : ∀ a, addrOf e = some a → D a) :
    Bigger D n m (s.step n e).2 (l.step m e').2 ∧ NoWorse (s.step n e).1 (l.step m e').1 := by
  cases e with
  | acquire a now =>
    cases e' <;> cases he
    have ha := hk a rfl
    have hp : ∀ x ∈ labels s, D x := fun x hx => h.known x (h.part.subset hx)
    have h1 := takeIdle_labels hD ha s.idle hp
    have h2 := takeIdle_labels hD ha l.idle h.known
    have hsus : (fun b => if b = a then none else l.suspended b) = fun b => if b = a then none else s.suspended b := by
      rw [h.suspended]
    have hlen : ∀ s : IdlePool, ∀ l' : List (Addr × Conn), l'.map Prod.fst = (labels s).erase a → a ∈ labels s →
        l'.length + 1 = s.idle.length := by
      intro s l' h3 h4
      have h5 := congrArg List.length h3
      rw [List.length_map, List.length_erase_of_mem h4, labels, List.length_map] at h5
      have : 0 < (labels s).length := List.length_pos_of_mem h4
      rw [labels, List.length_map] at this
      omega
    simp only [IdlePool.step, h.suspended]
    split
    · exact ⟨h, .rejected⟩
    · cases hts : takeIdle a s.idle with
      | none =>
        rw [hts] at h1
        cases htl : takeIdle a l.idle with
        | none => exact ⟨⟨h.part, h.room, h.small, h.large, h.known, rfl, h.duration⟩, .opened a⟩
        | some r =>
          rw [htl] at h2
          obtain ⟨h2, h3⟩ := h2
          have h4 := hlen l r.2 h3 h2
          refine ⟨⟨?_, ?_, h.small, ?_, ?_, rfl, h.duration⟩, .spared a r.1⟩
          · show (labels s).Sublist (r.2.map Prod.fst)
            have h1 : a ∉ labels s := h1
            have := h.part.erase a
            rwa [List.erase_of_not_mem h1, labels, labels, ← h3] at this
          · have := h.room
            show r.2.length ≤ s.idle.length + (m - n)
            omega
          · have := h.large
            show r.2.length ≤ m
            omega
          · intro x hx
            have hx : x ∈ r.2.map Prod.fst := hx
            rw [h3] at hx
            exact h.known x (List.mem_of_mem_erase hx)
      | some q =>
        rw [hts] at h1
        obtain ⟨h1, h1'⟩ := h1
        have h5 := hlen s q.2 h1' h1
        cases htl : takeIdle a l.idle with
        | none =>
          rw [htl] at h2
          exact absurd (h.part.subset h1) h2
        | some r =>
          rw [htl] at h2
          obtain ⟨h2, h3⟩ := h2
          have h4 := hlen l r.2 h3 h2
          refine ⟨⟨?_, ?_, ?_, ?_, ?_, rfl, h.duration⟩, .reused q.1 r.1⟩
          · show (q.2.map Prod.fst).Sublist (r.2.map Prod.fst)
            rw [h3, h1']
            exact h.part.erase a
          · have := h.room
            show r.2.length ≤ q.2.length + (m - n)
            omega
          · have := h.small
            show q.2.length ≤ n
            omega
          · have := h.large
            show r.2.length ≤ m
            omega
          · intro x hx
            have hx : x ∈ r.2.map Prod.fst := hx
            rw [h3] at hx
            exact h.known x (List.mem_of_mem_erase hx)
  | release a c =>
    cases e' with
    | release a' c' =>
      cases he
      have h1 := h.room
      have h2 := h.small
      have h3 := h.large
      have h4 := h.part.length_le
      simp only [labels, List.length_map] at h4
      simp only [IdlePool.step]
      have hap : ((s.idle ++ [(a, c)]).map Prod.fst).Sublist ((l.idle ++ [(a, c')]).map Prod.fst) := by
        rw [List.map_append, List.map_append]
        exact h.part.append (List.Sublist.refl _)
      have hks : (s.idle ++ [(a, c)]).length - n ≤ 1 := by simp; omega
      have hll : (s.idle ++ [(a, c)]).length = s.idle.length + 1 := by simp
      have hll' : (l.idle ++ [(a, c')]).length = l.idle.length + 1 := by simp
      have hle : (l.idle ++ [(a, c')]).length - m ≤ (s.idle ++ [(a, c)]).length - n := by omega
      refine ⟨⟨?_, ?_, ?_, ?_, ?_, h.suspended, h.duration⟩, .closed _ _ ?_⟩
      · simp only [labels, List.map_drop]
        by_cases hz : (l.idle ++ [(a, c')]).length - m = 0
        · rw [hz, List.drop_zero]
          exact (List.drop_sublist _ _).trans hap
        · have e1 : (l.idle ++ [(a, c')]).length - m = 1 := by omega
          have e2 : (s.idle ++ [(a, c)]).length - n = 1 := by omega
          rw [e1, e2]
          exact hap.drop 1
      · simp only [List.length_drop]
        omega
      · simp only [List.length_drop]
        omega
      · simp only [List.length_drop]
        omega
      · intro x hx
        simp only [labels, List.map_drop] at hx
        have hx := List.mem_of_mem_drop hx
        rw [List.map_append, List.mem_append] at hx
        rcases hx with hx | hx
        · exact h.known x hx
        · simp only [List.map_cons, List.map_nil, List.mem_singleton] at hx
          exact hx ▸ hk a rfl
      · simp only [List.length_map, List.length_take]
        omega
    | _ => cases he
  | blacklist a now =>
    cases e' <;> cases he
    refine ⟨⟨h.part, h.room, h.small, h.large, h.known, ?_, h.duration⟩, .nothing⟩
    simp only [IdlePool.step, h.suspended, h.duration]
  | setSuspended d =>
    cases e' <;> cases he
    exact ⟨⟨h.part, h.room, h.small, h.large, h.known, h.suspended, rfl⟩, .nothing⟩

theorem bigger_run {D : Addr → Prop} (hD : ∀ a b, D a → D b → SameHost a b → a = b) {n m : Nat} (hnm : n ≤ m)
    {s l : IdlePool} (h : Bigger D n m s l) {evs evs' : List PoolEvent}
    (he : evs'.map anonymous = evs.map anonymous) (hk : ∀ e ∈ evs, ∀ a, addrOf e = some a → D a) :
    List.Forall₂ NoWorse (s.run n evs).1 (l.run m evs').1 := by
  induction evs generalizing s l evs' with
  | nil =>
    rw [List.map_nil, List.map_eq_nil_iff] at he
    subst he
    exact .nil
  | cons e evs ih =>
    cases evs' with
    | nil => cases he
    | cons e' evs' =>
      rw [List.map_cons, List.map_cons, List.cons.injEq] at he
      obtain ⟨h1, h2⟩ := bigger_step hD hnm h he.1 (hk e List.mem_cons_self)
      exact .cons h2 (ih h1 he.2 fun x hx => hk x (List.mem_cons_of_mem _ hx))

theorem noOverflow_anonymous {evs evs' : List PoolEvent} (he : evs'.map anonymous = evs.map anonymous)
    (h : NoOverflow evs) : NoOverflow evs' := by
  have key : ∀ (evs evs' : List PoolEvent), evs'.map anonymous = evs.map anonymous → releases evs' = releases evs ∧
      ∀ d, EndsInTime d evs → EndsInTime d evs' := by
    intro evs
    induction evs with
    | nil =>
      intro evs' he
      rw [List.map_nil, List.map_eq_nil_iff] at he
      subst he
      exact ⟨rfl, fun _ h => h⟩
    | cons e evs ih =>
      intro evs' he
      cases evs' with
      | nil => cases he
      | cons e' evs' =>
        rw [List.map_cons, List.map_cons, List.cons.injEq] at he
        obtain ⟨h1, h2⟩ := ih evs' he.2
        have he := he.1
        cases e <;> cases e' <;> cases he
        · exact ⟨h1, h2⟩
        · exact ⟨by simp only [releases] at h1 ⊢; simp [h1], h2⟩
        · exact ⟨h1, fun d h => ⟨h.1, h2 d h.2⟩⟩
        · exact ⟨h1, fun d h => h2 _ h⟩
  obtain ⟨h1, h2⟩ := key evs evs' he
  exact ⟨h1 ▸ h.1, h2 _ h.2⟩

/-- **C141.** A larger pool is no worse: if two pools get the same commands in the same order (the connections that are
returned may be others), and the addresses are told apart by IP address and port, then the larger one rejects the same
acquisitions, hands out an idle connection whenever the smaller one does, and never closes more connections
for want of room. -/
theorem C141_no_worse (n m : Nat) (hnm : n ≤ m) (evs evs' : List PoolEvent)
    (he : evs'.map anonymous = evs.map anonymous) (ht : ToldApart evs) (outs : List PoolOutput) (p : Pool)
    (hr : (Pool.withSize n).run evs = .ok (outs, p)) :
    ∃ outs' p', (Pool.withSize m).run evs' = .ok (outs', p') ∧ List.Forall₂ NoWorse outs outs' := by
  have hno := (C54_exactly n evs).1 ⟨outs, p, hr⟩
  obtain ⟨p1, h1⟩ := C54_pool_never_panics n evs hno
  rw [hr] at h1
  cases h1
  obtain ⟨p2, h2⟩ := C54_pool_never_panics m evs' (noOverflow_anonymous he hno)
  refine ⟨_, p2, h2, bigger_run (D := fun a => ∃ e ∈ evs, addrOf e = some a) (s := .new) (l := .new) ?_ hnm
    ⟨List.Sublist.refl _, Nat.zero_le _, Nat.zero_le _, Nat.zero_le _, by simp [labels, IdlePool.new], rfl, rfl⟩ he
    fun e h a ha => ⟨e, h, ha⟩⟩
  rintro a b ⟨e, he, ha⟩ ⟨e', he', hb⟩ hs
  exact ht e he e' he' a b ha hb hs

theorem noWorse_totals {outs outs' : List PoolOutput} (h : List.Forall₂ NoWorse outs outs') :
    toOpen outs' ≤ toOpen outs ∧ crowdedOut outs' ≤ crowdedOut outs := by
  induction h with
  | nil => exact ⟨Nat.le_refl _, Nat.le_refl _⟩
  | cons h _ ih =>
    obtain ⟨h1, h2⟩ := ih
    simp only [toOpen, crowdedOut] at h1 h2
    cases h <;> simp only [toOpen, crowdedOut, List.filter_cons, List.map_cons, List.sum_cons, ↓reduceIte,
      List.length_cons, Bool.false_eq_true] <;> omega

/-- **C141.** So it makes its callers open at most as many connections, and closes at most as many. -/
theorem C141_totals (n m : Nat) (hnm : n ≤ m) (evs evs' : List PoolEvent)
    (he : evs'.map anonymous = evs.map anonymous) (ht : ToldApart evs) (outs outs' : List PoolOutput) (p p' : Pool)
    (hr : (Pool.withSize n).run evs = .ok (outs, p)) (hr' : (Pool.withSize m).run evs' = .ok (outs', p')) :
    toOpen outs' ≤ toOpen outs ∧ crowdedOut outs' ≤ crowdedOut outs := by
  obtain ⟨o, q, h1, h2⟩ := C141_no_worse n m hnm evs evs' he ht outs p hr
  rw [hr'] at h1
  cases h1
  exact noWorse_totals h2

/-- **C141.** The addresses have to be told apart: if two differ in scope only, a pool of size two opens a connection
where a pool of size one reuses one. -/
theorem C141_scopes (a b : Addr) (hs : SameHost b a) (hne : b ≠ a) (c d : Conn) :
    ∃ p p', (Pool.withSize 1).run [.release b c, .release a d, .acquire a 0] =
        .ok ([.closed [], .closed [c], .reply (.ready d)], p) ∧
      (Pool.withSize 2).run [.release b c, .release a d, .acquire a 0] =
        .ok ([.closed [], .closed [], .reply (.connecting a)], p') := by
  have hno : NoOverflow [.release b c, .release a d, .acquire a 0] := ⟨by simp [releases], trivial⟩
  obtain ⟨p, h⟩ := C54_pool_never_panics 1 _ hno
  obtain ⟨p', h'⟩ := C54_pool_never_panics 2 _ hno
  refine ⟨p, p', ?_, ?_⟩
  · rw [h]
    have : SameHost a a := ⟨rfl, rfl⟩
    simp [IdlePool.run, IdlePool.step, IdlePool.new, takeIdle, this]
  · rw [h']
    simp [IdlePool.run, IdlePool.step, IdlePool.new, takeIdle, hs, hne]

namespace LargerExamples

def x : Addr := ⟨1, 80, 0⟩
def y : Addr := ⟨2, 80, 0⟩

/-- Calls to two addresses in turn. The connections that are returned depend on the pool. -/
def turns (c d : Conn) : List PoolEvent :=
  [.acquire x 0, .release x 0, .acquire y 0, .release y 1, .acquire x 0, .release x c, .acquire y 0, .release y d]

theorem turns_apart (c d : Conn) : ToldApart (turns c d) := by
  intro e he e' he' a b ha hb hs
  have h : ∀ e ∈ turns c d, addrOf e = some x ∨ addrOf e = some y := by simp [turns, addrOf]
  rcases h e he with h1 | h1 <;> rcases h e' he' with h2 | h2 <;> rw [h1] at ha <;> rw [h2] at hb <;> cases ha <;> cases hb
  · rfl
  · exact absurd hs (by decide)
  · exact absurd hs (by decide)
  · rfl

theorem turns_one : ∃ p, (Pool.withSize 1).run (turns 2 3) = .ok ([.reply (.connecting x), .closed [],
    .reply (.connecting y), .closed [0], .reply (.connecting x), .closed [1], .reply (.connecting y), .closed [2]], p) := by
  obtain ⟨p, h⟩ := C54_pool_never_panics 1 (turns 2 3) (by decide)
  exact ⟨p, h⟩

theorem turns_two : ∃ p, (Pool.withSize 2).run (turns 0 1) = .ok ([.reply (.connecting x), .closed [],
    .reply (.connecting y), .closed [], .reply (.ready 0), .closed [], .reply (.ready 1), .closed []], p) := by
  obtain ⟨p, h⟩ := C54_pool_never_panics 2 (turns 0 1) (by decide)
  exact ⟨p, h⟩

/-- A pool of one connection opens four connections and closes three; a pool of two opens two and closes none. -/
example : ∃ outs outs', List.Forall₂ NoWorse outs outs' ∧ toOpen outs = 4 ∧ toOpen outs' = 2 ∧ crowdedOut outs = 3 ∧
    crowdedOut outs' = 0 := by
  obtain ⟨p, h⟩ := turns_one
  obtain ⟨p', h'⟩ := turns_two
  obtain ⟨o, q, h1, h2⟩ := C141_no_worse 1 2 (by decide) (turns 2 3) (turns 0 1) rfl (turns_apart _ _) _ p h
  rw [h'] at h1
  cases h1
  exact ⟨_, _, h2, rfl, rfl, rfl, rfl⟩

end LargerExamples

end Htrpc
