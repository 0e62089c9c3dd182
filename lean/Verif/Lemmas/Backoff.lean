/-
What every event means for the attempts to connect to one address.
-/
import Verif.Spec.Backoff
import Verif.Props.PoolAlive

namespace Htrpc
open Spec

/-- The call connects to `a`. -/
def connects (a : Addr) (y : PCall) : Bool :=
  decide (y.addr = a) && match y.st with | .replied _ (.connecting _) => true | _ => false

theorem connects_unconnected {a : Addr} {y : PCall} (h : connects a y = true) : unconnected a y = true := by
  revert h
  unfold connects unconnected
  cases y.addr == a <;> simp only [Bool.and_eq_true, decide_eq_true_eq, and_imp] <;>
    (intro h1 h2; refine ⟨h1, ?_⟩; revert h2; split <;> simp_all)

/-- Call `i` asks for a connection to `a` before any report about `a`. -/
def Ahead (a : Addr) (q : List Cmd) (i : Nat) : Prop :=
  ∃ l l', q = l ++ .acquire a i :: l' ∧ .blacklist a ∉ l

theorem ahead_mem {a : Addr} {q : List Cmd} {i : Nat} (h : Ahead a q i) : .acquire a i ∈ q := by
  obtain ⟨l, l', rfl, -⟩ := h
  simp

theorem ahead_pop {a : Addr} {q : List Cmd} {i : Nat} {cmd : Cmd} (hc : cmd ≠ .blacklist a)
    (h : Ahead a q i) : Ahead a (cmd :: q) i := by
  obtain ⟨l, l', rfl, h⟩ := h
  exact ⟨cmd :: l, l', rfl, by simp [h, Ne.symm hc]⟩

theorem ahead_head (a : Addr) (q : List Cmd) (i : Nat) : Ahead a (.acquire a i :: q) i :=
  ⟨[], q, rfl, by simp⟩

theorem ahead_push {a : Addr} {q : List Cmd} {i : Nat} {cmd : Cmd} (h : Ahead a (q ++ [cmd]) i) :
    Ahead a q i ∨ (cmd = .acquire a i ∧ .blacklist a ∉ q) := by
  obtain ⟨l, l', e, h⟩ := h
  rcases List.eq_nil_or_concat l' with rfl | ⟨l'', x, rfl⟩
  · rw [List.append_inj_right' e rfl |> List.singleton_inj.1] at *
    exact .inr ⟨rfl, (List.append_inj_left' e rfl) ▸ h⟩
  · rw [List.concat_eq_append, ← List.cons_append, ← List.append_assoc] at e
    exact .inl ⟨l, l'', List.append_inj_left' e rfl, h⟩

/-- No call comes nearer to a connection. -/
def Less (a : Addr) (l l' : List PCall) : Prop :=
  l.length ≤ l'.length ∧ ∀ (i : Nat) (y' : PCall), l'[i]? = some y' → unconnected a y' = true →
    ∃ y, l[i]? = some y ∧ unconnected a y = true ∧ (connects a y' = true → connects a y = true)

theorem less_refl (a : Addr) (l : List PCall) : Less a l l := ⟨Nat.le_refl _, fun _ y h h' => ⟨y, h, h', id⟩⟩

theorem less_set {a : Addr} {l : List PCall} {i : Nat} (y' : PCall) (h : unconnected a y' = false) :
    Less a l (l.set i y') := by
  refine ⟨by simp, fun j z hz hu => ?_⟩
  rw [List.getElem?_set] at hz
  split at hz
  · split at hz
    · cases hz; rw [h] at hu; cases hu
    · cases hz
  · exact ⟨z, hz, hu, id⟩

theorem less_snoc {a : Addr} {l : List PCall} (y' : PCall) (h : unconnected a y' = false) :
    Less a l (l ++ [y']) := by
  refine ⟨by simp, fun j z hz hu => ?_⟩
  rcases Nat.lt_or_ge j l.length with hj | hj
  · rw [List.getElem?_append_left hj] at hz
    exact ⟨z, hz, hu, id⟩
  · rw [List.getElem?_append_right hj] at hz
    have := List.mem_of_getElem? hz
    rw [List.mem_singleton] at this
    rw [this, h] at hu; cases hu

theorem countP_le {α : Type} {p : α → Bool} : ∀ {l l' : List α},
    (∀ (i : Nat) (y' : α), l'[i]? = some y' → p y' = true → ∃ y, l[i]? = some y ∧ p y = true) →
    l'.countP p ≤ l.countP p
  | l, [], _ => by simp
  | [], x :: l', h => by
    have : (x :: l').countP p = 0 := by
      rw [List.countP_eq_zero]
      intro z hz hp
      obtain ⟨i, hi⟩ := List.mem_iff_getElem?.1 hz
      obtain ⟨y, hy, -⟩ := h i z hi hp
      simp at hy
    omega
  | w :: l, x :: l', h => by
    have ih : l'.countP p ≤ l.countP p := countP_le fun i y' hy hp => h (i + 1) y' hy hp
    rw [List.countP_cons, List.countP_cons]
    have : p x = true → p w = true := fun hx => by
      obtain ⟨y, hy, hp⟩ := h 0 x rfl hx
      cases hy
      exact hp
    by_cases hx : p x = true
    · rw [if_pos hx, if_pos (this hx)]; omega
    · rw [if_neg hx]; omega

theorem less_count {a : Addr} {l l' : List PCall} (h : Less a l l') :
    l'.countP (connects a) ≤ l.countP (connects a) :=
  countP_le fun i y' hy hp => by
    obtain ⟨y, h1, -, h3⟩ := h.2 i y' hy (connects_unconnected hp)
    exact ⟨y, h1, h3 hp⟩

theorem less_take {a : Addr} {l l' : List PCall} (h : Less a l l') (N : Nat) :
    (l'.take N).countP (unconnected a) ≤ (l.take N).countP (unconnected a) :=
  countP_le fun i y' hy hp => by
    rw [List.getElem?_take] at hy ⊢
    split at hy
    · rename_i hi
      rw [if_pos hi]
      obtain ⟨y, h1, h2, -⟩ := h.2 i y' hy hp
      exact ⟨y, h1, h2⟩
    · cases hy

/-- Nothing new about `a`. -/
structure Quiet (a : Addr) (last : Time) (s s' : Sys) : Prop where
  calls : Less a s.calls s'.calls
  queue : (s'.pool = none ∧ s'.queue = []) ∨
    ((s'.pool = none ↔ s.pool = none) ∧ (∀ i, Ahead a s'.queue i → Ahead a s.queue i) ∧
      (.blacklist a ∈ s'.queue ↔ .blacklist a ∈ s.queue))
  entry : ∀ p', s'.pool = some p' → ∃ p, s.pool = some p ∧
    (p'.blacklist.lookup a = p.blacklist.lookup a ∨ ∀ u, p.blacklist.lookup a = some u → u ≤ last)

/-- What an event means for `a`. -/
inductive Move (a : Addr) (d : Nat) (last : Time) (s s' : Sys) : Nat → Prop where
  | quiet : Quiet a last s s' → Move a d last s s' 0
  | call {y : PCall} : s'.calls = s.calls ++ [y] → connects a y = false →
      s'.queue = (if s.pool = none then s.queue else s.queue ++ [.acquire a s.calls.length]) →
      s'.pool = s.pool → Move a d last s s' 0
  | refuse {i : Nat} {y y' : PCall} : s.calls[i]? = some y → connects a y = true →
      s'.calls = s.calls.set i y' → unconnected a y' = false →
      s'.queue = (if s.pool = none then s.queue else s.queue ++ [.blacklist a]) →
      s'.pool = s.pool → Move a d last s s' 1
  | grant {i : Nat} {y y' : PCall} {p : Pool} : s.calls[i]? = some y → unconnected a y = true →
      connects a y = false → s'.calls = s.calls.set i y' → connects a y' = true →
      s.queue = .acquire a i :: s'.queue → s.pool = some p → s'.pool ≠ none →
      (∀ u, p.blacklist.lookup a = some u → u ≤ last) → Move a d last s s' 0
  | report {p' : Pool} : s'.calls = s.calls → s.queue = .blacklist a :: s'.queue → s.pool ≠ none →
      s'.pool = some p' → (∃ u, p'.blacklist.lookup a = some u ∧ last + d ≤ u) → Move a d last s s' 0

/-- Suspensions are at least so long. -/
def Long (d : Nat) (s : Sys) : Prop := ∀ p, s.pool = some p → d ≤ p.suspended

theorem quiet_same (a : Addr) (last : Time) (s : Sys) : Quiet a last s s :=
  ⟨less_refl a _, .inr ⟨Iff.rfl, fun _ => id, Iff.rfl⟩, fun p h => ⟨p, h, .inl rfl⟩⟩

theorem quiet_calls {a : Addr} (last : Time) {s : Sys} {l : List PCall} (n : Nat) (h : Less a s.calls l) :
    Quiet a last s { s with calls := l, next := n } :=
  ⟨h, .inr ⟨Iff.rfl, fun _ => id, Iff.rfl⟩, fun p h => ⟨p, h, .inl rfl⟩⟩

theorem quiet_gone {a : Addr} (last : Time) (s : Sys) : Quiet a last s s.dropPool.2 := by
  unfold Sys.dropPool
  split
  · exact quiet_same a last s
  · exact ⟨less_refl a _, .inl ⟨rfl, rfl⟩, fun p h => by cases h⟩

theorem quiet_settle {a : Addr} (last : Time) (i : Nat) (y : PCall) (c : Conn) (inner : CallInner) (s : Sys)
    (o : CallOutcome) (n : Nat) : Quiet a last s (Sys.settle i y c inner { s with next := n } o).2 := by
  cases o with
  | ready v body =>
    simp only [Sys.settle, Sys.setCall, Sys.send]
    split
    · exact quiet_calls last _ (less_set _ (by simp [unconnected]))
    · rename_i p hp
      refine ⟨less_set _ (by simp [unconnected]), .inr ⟨by simp, fun j h => ?_, by simp⟩, fun p' h => ⟨p', h, .inl rfl⟩⟩
      rcases ahead_push h with h | ⟨h, -⟩
      · exact h
      · cases h
  | _ => exact quiet_calls last _ (less_set _ (by simp [unconnected]))

theorem settle_refused (a : Addr) (i : Nat) (y : PCall) (c : Conn) (inner : CallInner) (s : Sys)
    (o : CallOutcome) : refusedTo a (Sys.settle i y c inner s o).1 = 0 := by
  cases o with
  | ready v body =>
    simp only [Sys.settle]
    split <;> rfl
  | _ => rfl

theorem reply_refused (a b : Addr) (i : Nat) (f : Pooled) (s : Sys) : refusedTo a (s.reply i b f).1 = 0 := by
  unfold Sys.reply
  split <;> cases f <;> rfl

theorem refusedTo_closed (a : Addr) (cs : List Conn) : refusedTo a (cs.map .closed) = 0 := by
  simp [refusedTo]

theorem refusedTo_gone (a : Addr) (s : Sys) : refusedTo a s.dropPool.1 = 0 := by
  unfold Sys.dropPool
  split
  · rfl
  · exact refusedTo_closed a _

/-- What handling a command means. -/
theorem move_handle [FloatText] {a : Addr} {d : Nat} {log : List Effect} {s : Sys} (hi : Sys.Inv log s) (hd : Long d s)
    (now : Time) : Move a d now s (s.handle now).2 (refusedTo a (s.handle now).1) ∧ Long d (s.handle now).2 := by
  unfold Sys.handle
  split
  · rename_i p cmd q hp hq
    have hl := hi.pool
    rw [hp] at hl
    obtain ⟨size, ip, hl, -⟩ := hl
    split
    · rename_i o p' hs
      obtain ⟨p'', e1, e2, -⟩ := step_like' hl _ (room_of_step hs)
      rw [hs] at e1
      cases e1
      have hsusp : p'.suspended = p.suspended := by
        rw [e2.duration, duration_step, hl.duration]
        cases cmd <;> rfl
      have hlong : ∀ s' : Sys, s'.pool = some p' → Long d s' := by
        intro s' h3 p'' h4
        rw [h3] at h4
        cases h4
        rw [hsusp]
        exact hd p hp
      have hentry := e2.blacklist a
      have hentry0 := hl.blacklist a
      cases cmd with
      | acquire b i =>
        simp only [Cmd.event] at e2 hs hentry
        -- what is known about the entry of `a`
        have hold : p'.blacklist.lookup a = p.blacklist.lookup a ∨
            (b = a ∧ ∀ u, p.blacklist.lookup a = some u → u ≤ now) := by
          rw [hentry, hentry0, IdlePool.step]
          split
          · exact .inl rfl
          · rename_i hn
            by_cases hb : b = a
            · subst hb
              exact .inr ⟨rfl, fun u hu => Nat.not_lt.1 fun h => hn ⟨u, hu, h⟩⟩
            · refine .inl ?_
              simp only
              split <;> simp [Ne.symm hb]
        have hgrant : ∀ c, (ip.step size (.acquire b now)).1 = .reply (.connecting c) →
            c = b ∧ ∀ u, p.blacklist.lookup b = some u → u ≤ now := by
          intro c hc
          rw [hl.blacklist b]
          simp only [IdlePool.step] at hc
          split at hc
          · cases hc
          · rename_i hn
            refine ⟨?_, fun u hu => Nat.not_lt.1 fun h => hn ⟨u, hu, h⟩⟩
            split at hc <;> cases hc
            rfl
        have hq2 : ∀ i, Ahead a q i → Ahead a s.queue i := fun j h => hq ▸ ahead_pop (by simp) h
        have hq3 : .blacklist a ∈ q ↔ .blacklist a ∈ s.queue := by rw [hq]; simp
        have quiet : ∀ l, Less a s.calls l →
            Quiet a now s ⟨some p', q, l, s.next⟩ := fun l hless =>
          ⟨hless, .inr ⟨by simp [hp], hq2, hq3⟩, fun p'' h => by
            cases h
            exact ⟨p, hp, hold.imp_right And.right⟩⟩
        have hreply : ∃ f, (ip.step size (.acquire b now)).1 = .reply f := by
          simp only [IdlePool.step]
          split
          · exact ⟨_, rfl⟩
          · split <;> exact ⟨_, rfl⟩
        obtain ⟨f, hf⟩ := hreply
        simp only [Cmd.event, hf]
        rw [reply_refused]
        refine ⟨?_, hlong _ (reply_pool ..)⟩
        unfold Sys.reply
        split
        · rename_i pr b' inner hc
          have hb' : b' = b := by
            have := hi.acquires b i (by rw [hq]; simp)
            simp only [Sys.addrOf] at this
            simp only at hc
            rw [hc] at this
            simpa using this
          subst hb'
          simp only [Sys.setCall]
          by_cases hb : b' = a
          · subst hb
            cases f with
            | connecting c =>
              obtain ⟨rfl, h2⟩ := hgrant c hf
              exact .grant (i := i) hc (by simp [unconnected]) (by simp [connects]) rfl (by simp [connects])
                hq hp (by simp) h2
            | _ => exact .quiet (quiet _ (less_set _ (by simp [unconnected])))
          · exact .quiet (quiet _ (less_set _ (by simp [unconnected, hb])))
        · exact .quiet (quiet _ (less_refl a _))
      | release b c =>
        simp only [Cmd.event, IdlePool.step] at e2 hs hentry ⊢
        refine ⟨?_, hlong _ rfl⟩
        rw [refusedTo_closed]
        refine .quiet ⟨less_refl a _, .inr ⟨by simp [hp], fun j h => hq ▸ ahead_pop (by simp) h, by rw [hq]; simp⟩,
          fun p'' h => ?_⟩
        cases h
        exact ⟨p, hp, .inl (by rw [hentry, hentry0])⟩
      | blacklist b =>
        simp only [Cmd.event, IdlePool.step] at e2 hs hentry ⊢
        refine ⟨?_, hlong _ rfl⟩
        show Move a d now s _ 0
        by_cases hb : b = a
        · subst hb
          rw [if_pos rfl] at hentry
          refine .report rfl hq (by simp [hp]) rfl ⟨_, hentry, ?_⟩
          have := hd p hp
          rw [← hl.duration]
          exact Nat.add_le_add_left this now
        · rw [if_neg (Ne.symm hb)] at hentry
          refine .quiet ⟨less_refl a _, .inr ⟨by simp [hp], fun j h => hq ▸ ahead_pop (by simpa using hb) h,
            by rw [hq]; simp [Ne.symm hb]⟩, fun p'' h => ?_⟩
          cases h
          exact ⟨p, hp, .inl (by rw [hentry, hentry0])⟩
    · rw [refusedTo_gone]
      exact ⟨.quiet (quiet_gone now s), fun p h => by rw [Sys.dropPool_pool] at h; cases h⟩
  · exact ⟨.quiet (quiet_same a now s), hd⟩

/-- What an event means. -/
theorem move_step [FloatText] {a : Addr} {d : Nat} {log : List Effect} {s : Sys} (hi : Sys.Inv log s)
    (hd : Long d s) (last : Time) (e : SysEvent) (he : ∀ now, e = .handle now → last = now)
    (hs : ∀ d', e = .setSuspended d' → d ≤ d') :
    Move a d last s (s.step e).2 (refusedTo a (s.step e).1) ∧ Long d (s.step e).2 := by
  have hsame : Move a d last s s 0 ∧ Long d s := ⟨.quiet (quiet_same a last s), hd⟩
  have hset : ∀ l, Less a s.calls l → Move a d last s { s with calls := l } 0 ∧ Long d { s with calls := l } :=
    fun l h => ⟨.quiet (quiet_calls last _ h), hd⟩
  cases e with
  | call p b v body =>
    refine ⟨?_, fun p h => hd p (by rwa [Sys.step, Sys.call, Sys.send_pool] at h)⟩
    show Move a d last s (s.call p b v body) 0
    by_cases hb : b = a
    · subst hb
      refine .call (y := ⟨p, b, .waiting (.new v body)⟩) ?_ (by simp [connects]) ?_ ?_
      · rw [Sys.call, Sys.send_calls]
      · simp only [Sys.call, Sys.send]
        cases s.pool <;> simp
      · rw [Sys.call, Sys.send_pool]
    · refine .quiet ⟨?_, .inr ?_, fun p' h => ⟨p', by rwa [Sys.call, Sys.send_pool] at h, .inl rfl⟩⟩
      · rw [Sys.call, Sys.send_calls]
        exact less_snoc _ (by simp [unconnected, hb])
      · refine ⟨by rw [Sys.call, Sys.send_pool], ?_, ?_⟩
        · intro i h
          simp only [Sys.call, Sys.send] at h
          split at h
          · exact h
          · rcases ahead_push h with h | ⟨h, -⟩
            · exact h
            · cases h; exact absurd rfl hb
        · simp only [Sys.call, Sys.send]
          split <;> simp
  | handle now =>
    cases he now rfl
    exact move_handle hi hd _
  | setSuspended d' =>
    have hd' := hs d' rfl
    refine ⟨.quiet ⟨less_refl a _, .inr ⟨by simp [Sys.step], fun _ => id, Iff.rfl⟩, fun p' h => ?_⟩, fun p' h => ?_⟩
    · simp only [Sys.step, Option.map_eq_some_iff] at h
      obtain ⟨p, h1, rfl⟩ := h
      exact ⟨p, h1, .inl rfl⟩
    · simp only [Sys.step, Option.map_eq_some_iff] at h
      obtain ⟨p, h1, rfl⟩ := h
      exact hd'
  | dropPool =>
    rw [Sys.step, refusedTo_gone]
    exact ⟨.quiet (quiet_gone last s), fun p h => by rw [Sys.dropPool_pool] at h; cases h⟩
  | poll i r =>
    have hsettle : ∀ y c inner o n, Long d (Sys.settle i y c inner { s with next := n } o).2 :=
      fun y c inner o n p h => hd p (by rwa [settle_pool] at h)
    rw [Sys.step, Sys.poll]
    split
    · exact hsame
    · rename_i y hy
      split
      · split
        · exact hsame
        · exact hset _ (less_set _ (by simp [unconnected]))
      · rename_i inner c hst
        rw [settle_refused]
        exact ⟨.quiet (quiet_settle last i y c inner s _ s.next), hsettle _ _ _ _ s.next⟩
      · exact hset _ (less_set _ (by simp [unconnected]))
      · rename_i inner b hst
        have hb : b = y.addr := hi.connecting i y inner b hy hst
        subst hb
        split
        · have h0 : refusedTo a (.opened i y.addr s.next ::
              (Sys.settle i y s.next inner { s with next := s.next + 1 } (callStep y.proc inner .connected)).1) = 0 := by
            have := settle_refused a i y s.next inner { s with next := s.next + 1 }
              (callStep y.proc inner .connected)
            simpa [refusedTo] using this
          simp only [h0]
          exact ⟨.quiet (quiet_settle last i y _ inner s _ _), hsettle _ _ _ _ _⟩
        · refine ⟨?_, fun p h => hd p (by rwa [Sys.send_pool] at h)⟩
          by_cases hb : y.addr = a
          · have h1 : refusedTo a [.refused i y.addr] = 1 := by simp [refusedTo, hb]
            rw [h1]
            refine .refuse (y' := { y with st := .failed .other }) hy ?_ ?_ (by simp [unconnected]) ?_ ?_
            · simp [connects, hst, hb]
            · rw [Sys.send_calls]; rfl
            · simp only [Sys.send, Sys.setCall, hb]
              cases s.pool <;> simp
            · rw [Sys.send_pool]; rfl
          · have h1 : refusedTo a [.refused i y.addr] = 0 := by simp [refusedTo, hb]
            rw [h1]
            refine .quiet ⟨?_, .inr ⟨by rw [Sys.send_pool]; rfl, ?_, ?_⟩,
              fun p' h => ⟨p', by rwa [Sys.send_pool] at h, .inl rfl⟩⟩
            · rw [Sys.send_calls]
              exact less_set _ (by simp [unconnected])
            · intro j h
              simp only [Sys.send, Sys.setCall] at h
              split at h
              · exact h
              · rcases ahead_push h with h | ⟨h, -⟩
                · exact h
                · cases h
            · simp only [Sys.send, Sys.setCall]
              split <;> simp [Ne.symm hb]
        · exact hsame
      · rename_i c inner hst
        have h0 : refusedTo a (.io i c :: (Sys.settle i y c inner s (callStep y.proc inner r)).1) = 0 := by
          have := settle_refused a i y c inner s (callStep y.proc inner r)
          simpa [refusedTo] using this
        simp only [h0]
        exact ⟨.quiet (quiet_settle last i y c inner s _ s.next), hsettle _ _ _ _ s.next⟩
      · exact hsame
  | dropCall i =>
    rw [Sys.step, Sys.dropCall]
    split
    · exact hsame
    · split <;> first | exact hsame | exact hset _ (less_set _ (by simp [unconnected]))

end Htrpc
