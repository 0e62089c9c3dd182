/-
C134: how often connections to an address are attempted.
-/
import Verif.Lemmas.Backoff
import Mathlib.Data.List.Induction

namespace Htrpc
open Spec

/-- How the attempts to connect to `a` stand: `j` suspensions are over or run. Either the next attempts have not
begun, or they have begun and none has failed so far, or one has failed and the calls before the `N`th
may still fail, too, but no others until the suspension is over. -/
inductive Stage (a : Addr) (k d t : Nat) (s : Sys) (r last : Nat) : Prop where
  | closed (j : Nat) : r + s.calls.countP (connects a) ≤ k * j → t + j * d ≤ last + d →
      (t + j * d ≤ last ∨ ∀ p, s.pool = some p → ∃ u, p.blacklist.lookup a = some u ∧ t + j * d ≤ u) →
      Stage a k d t s r last
  | free (j : Nat) : r ≤ k * j → .blacklist a ∉ s.queue → t + j * d ≤ last → Stage a k d t s r last
  | ending (j N : Nat) : N ≤ s.calls.length → r + (s.calls.take N).countP (unconnected a) ≤ k * (j + 1) →
      t + j * d ≤ last → (∀ i, Ahead a s.queue i → i < N) →
      (∀ i y, s.calls[i]? = some y → connects a y = true → i < N) →
      (.blacklist a ∈ s.queue ∨ s.pool = none) → Stage a k d t s r last

/-- The connecting calls are among the first ones. -/
theorem connects_take {a : Addr} {l : List PCall} {N : Nat}
    (h : ∀ i y, l[i]? = some y → connects a y = true → i < N) :
    l.countP (connects a) ≤ (l.take N).countP (unconnected a) := by
  have h1 : l.countP (connects a) ≤ (l.take N).countP (connects a) := by
    refine countP_le fun i y hy hp => ⟨y, ?_, hp⟩
    rw [List.getElem?_take, if_pos (h i y hy hp), hy]
  exact Nat.le_trans h1 (List.countP_mono_left fun y _ => connects_unconnected)

/-- One call less. -/
theorem count_less {p : PCall → Bool} {l : List PCall} {i : Nat} {y y' : PCall} (h : l[i]? = some y)
    (hy : p y = true) (hy' : p y' = false) : (l.set i y').countP p + 1 = l.countP p := by
  obtain ⟨hi, rfl⟩ := List.getElem?_eq_some_iff.1 h
  rw [List.countP_set hi, if_pos hy, hy']
  have : 0 < l.countP p := List.countP_pos_iff.2 ⟨_, List.mem_of_getElem? h, hy⟩
  simp
  omega

theorem stage_move {a : Addr} {k d t r x last last' : Nat} {log : List Effect} {s s' : Sys}
    (hi : Sys.Inv log s) (hk : s.calls.countP (unconnected a) ≤ k) (h : Stage a k d t s r last)
    (hl : last ≤ last') (hm : Move a d last' s s' x) : Stage a k d t s' (r + x) last' := by
  have hidx : ∀ i, .acquire a i ∈ s.queue → i < s.calls.length := by
    intro i hm
    have := hi.acquires a i hm
    simp only [Sys.addrOf, Option.map_eq_some_iff] at this
    obtain ⟨y, hy, -⟩ := this
    exact (List.getElem?_eq_some_iff.1 hy).1
  have hlt : ∀ (i : Nat) (y : PCall), s.calls[i]? = some y → i < s.calls.length :=
    fun i y hy => (List.getElem?_eq_some_iff.1 hy).1
  have e1 : ∀ j : Nat, (j + 1) * d = j * d + d := fun j => Nat.succ_mul j d
  have e2 : ∀ j : Nat, k * (j + 1) = k * j + k := fun j => Nat.mul_succ k j
  cases hm with
  | quiet hq =>
    cases h with
    | closed j h1 h2 h3 =>
      refine .closed j ?_ (by omega) ?_
      · have := less_count hq.calls; omega
      · rcases h3 with h3 | h3
        · exact .inl (by omega)
        · cases hp' : s'.pool with
          | none => exact .inr fun p h => by cases h
          | some p' =>
            obtain ⟨p, hp, h4⟩ := hq.entry p' hp'
            obtain ⟨u, hu, hu'⟩ := h3 p hp
            rcases h4 with h4 | h4
            · refine .inr fun p'' h => ?_
              cases h
              exact ⟨u, h4.trans hu, hu'⟩
            · exact .inl (Nat.le_trans hu' (h4 u hu))
    | free j h1 h2 h3 =>
      refine .free j h1 ?_ (by omega)
      rcases hq.queue with ⟨-, h4⟩ | ⟨-, -, h4⟩
      · rw [h4]; simp
      · rwa [h4]
    | ending j N h0 h1 h2 h3 h4 h5 =>
      refine .ending j N (Nat.le_trans h0 hq.calls.1) ?_ (by omega) ?_ ?_ ?_
      · have := less_take hq.calls N; omega
      · intro i h
        rcases hq.queue with ⟨-, h6⟩ | ⟨-, h6, -⟩
        · rw [h6] at h; cases ahead_mem h
        · exact h3 i (h6 i h)
      · intro i y hy hc
        obtain ⟨z, h6, -, h8⟩ := hq.calls.2 i y hy (connects_unconnected hc)
        exact h4 i z h6 (h8 hc)
      · rcases hq.queue with ⟨h6, -⟩ | ⟨h6, -, h7⟩
        · exact .inr h6
        · rwa [h6, h7]
  | call hc hy hqueue hpool =>
    rename_i y
    cases h with
    | closed j h1 h2 h3 =>
      refine .closed j ?_ (by omega) ?_
      · rw [hc, List.countP_append]; simpa [hy] using h1
      · rw [hpool]
        exact h3.imp_left fun h => by omega
    | free j h1 h2 h3 =>
      refine .free j h1 ?_ (by omega)
      rw [hqueue]
      split
      · exact h2
      · simpa using h2
    | ending j N h0 h1 h2 h3 h4 h5 =>
      refine .ending j N (by rw [hc]; simp; omega) ?_ (by omega) ?_ ?_ ?_
      · rw [hc, List.take_append_of_le_length h0]; exact h1
      · intro i h
        rw [hqueue] at h
        split at h
        · exact h3 i h
        · rename_i hn
          rcases ahead_push h with h | ⟨-, h⟩
          · exact h3 i h
          · exact absurd (h5.resolve_right hn) h
      · intro i z hz hcz
        rw [hc] at hz
        rcases Nat.lt_or_ge i s.calls.length with h6 | h6
        · rw [List.getElem?_append_left h6] at hz
          exact h4 i z hz hcz
        · rw [List.getElem?_append_right h6] at hz
          have := List.mem_of_getElem? hz
          rw [List.mem_singleton] at this
          rw [this, hy] at hcz; cases hcz
      · rw [hpool, hqueue]
        refine h5.imp_left fun h => ?_
        split
        · exact h
        · exact List.mem_append_left _ h
  | refuse hy hcon hc hy' hqueue hpool =>
    rename_i i y y'
    have hny' : connects a y' = false := by
      cases h : connects a y' with
      | false => rfl
      | true => rw [connects_unconnected h] at hy'; cases hy'
    have hahead : ∀ j, Ahead a s'.queue j → Ahead a s.queue j := by
      intro j h
      rw [hqueue] at h
      split at h
      · exact h
      · rcases ahead_push h with h | ⟨h, -⟩
        · exact h
        · cases h
    have hgone : .blacklist a ∈ s'.queue ∨ s'.pool = none := by
      rw [hqueue, hpool]
      split
      · rename_i h; exact .inr h
      · exact .inl (by simp)
    cases h with
    | closed j h1 h2 h3 =>
      refine .closed j ?_ (by omega) ?_
      · rw [hc]
        have := count_less hy hcon hny'
        omega
      · rw [hpool]
        exact h3.imp_left fun h => by omega
    | free j h1 h2 h3 =>
      refine .ending j s.calls.length (by rw [hc]; simp) ?_ (by omega) (fun j h => hidx j (ahead_mem (hahead j h)))
        (fun j z hz _ => ?_) hgone
      · rw [hc, List.take_of_length_le (by simp)]
        have := count_less hy (connects_unconnected hcon) hy'
        have := e2 j
        omega
      · rw [hc] at hz
        simpa using (List.getElem?_eq_some_iff.1 hz).1
    | ending j N h0 h1 h2 h3 h4 h5 =>
      have hiN := h4 i y hy hcon
      refine .ending j N (by rw [hc]; simpa using h0) ?_ (by omega) (fun j h => h3 j (hahead j h)) ?_ hgone
      · rw [hc, List.take_set]
        have hy2 : (s.calls.take N)[i]? = some y := by rw [List.getElem?_take, if_pos hiN, hy]
        have := count_less hy2 (connects_unconnected hcon) hy'
        omega
      · intro j z hz hcz
        rw [hc, List.getElem?_set] at hz
        split at hz
        · rename_i hji; exact hji ▸ hiN
        · exact h4 j z hz hcz
  | grant hy hu hcon hc hy' hqueue hpool hpool' hentry =>
    rename_i i y y' p
    have hahead : ∀ j, Ahead a s'.queue j → Ahead a s.queue j := fun j h => hqueue ▸ ahead_pop (by simp) h
    have hmem : .blacklist a ∈ s'.queue ↔ .blacklist a ∈ s.queue := by rw [hqueue]; simp
    have hcount : ∀ l : List PCall, l[i]? = some y →
        (l.set i y').countP (unconnected a) = l.countP (unconnected a) := by
      intro l h
      obtain ⟨hi, rfl⟩ := List.getElem?_eq_some_iff.1 h
      rw [List.countP_set hi, if_pos hu, if_pos (connects_unconnected hy')]
      have : 0 < l.countP (unconnected a) := List.countP_pos_iff.2 ⟨_, List.mem_of_getElem? h, hu⟩
      omega
    cases h with
    | closed j h1 h2 h3 =>
      have ht : t + j * d ≤ last' := by
        rcases h3 with h3 | h3
        · omega
        · obtain ⟨u, hu1, hu2⟩ := h3 p hpool
          exact Nat.le_trans hu2 (hentry u hu1)
      by_cases hb : .blacklist a ∈ s.queue
      · refine .ending j s.calls.length (by rw [hc]; simp) ?_ ht (fun j h => hidx j (ahead_mem (hahead j h)))
          (fun j z hz _ => ?_) (.inl (hmem.2 hb))
        · rw [hc, List.take_of_length_le (by simp), hcount _ hy]
          have := e2 j
          omega
        · rw [hc] at hz
          simpa using (List.getElem?_eq_some_iff.1 hz).1
      · exact .free j (by omega) (fun h => hb (hmem.1 h)) ht
    | free j h1 h2 h3 => exact .free j h1 (fun h => h2 (hmem.1 h)) (by omega)
    | ending j N h0 h1 h2 h3 h4 h5 =>
      have hiN : i < N := h3 i (hqueue ▸ ahead_head a _ i)
      refine .ending j N (by rw [hc]; simpa using h0) ?_ (by omega) (fun j h => h3 j (hahead j h)) ?_ ?_
      · rw [hc, List.take_set, hcount _ (by rw [List.getElem?_take, if_pos hiN, hy])]
        exact h1
      · intro j z hz hcz
        rw [hc, List.getElem?_set] at hz
        split at hz
        · rename_i hji; exact hji ▸ hiN
        · exact h4 j z hz hcz
      · rw [hpool] at h5
        exact .inl (hmem.2 (h5.resolve_right (by simp)))
  | report hc hqueue hpool hpool' hentry =>
    rename_i p'
    obtain ⟨u, hu1, hu2⟩ := hentry
    have done : ∀ j, r + s.calls.countP (connects a) ≤ k * j → t + j * d ≤ last' + d →
        Stage a k d t s' (r + 0) last' := by
      intro j h1 h2
      refine .closed j (by rw [hc]; exact h1) h2 (.inr fun p h => ?_)
      rw [hpool'] at h
      cases h
      exact ⟨u, hu1, Nat.le_trans h2 hu2⟩
    cases h with
    | closed j h1 h2 h3 => exact done j h1 (by omega)
    | free j h1 h2 h3 => exact absurd (by rw [hqueue]; simp) h2
    | ending j N h0 h1 h2 h3 h4 h5 =>
      have := connects_take h4
      have := e1 j
      exact done (j + 1) (by omega) (by omega)

section
variable [FloatText]

theorem stage_run {a : Addr} {k d t r last : Nat} {log : List Effect} {s : Sys} (hi : Sys.Inv log s)
    (hd : Long d s) (h : Stage a k d t s r last) (evs : List SysEvent)
    (hk : ∀ l, l <+: evs → (Sys.run l s).2.calls.countP (unconnected a) ≤ k)
    (hc : (last :: handledAt evs).Pairwise (· ≤ ·)) (hs : ∀ d', .setSuspended d' ∈ evs → d ≤ d') :
    ∃ last', Stage a k d t (Sys.run evs s).2 (r + refusedTo a (Sys.run evs s).1) last' ∧
      (last' = last ∨ last' ∈ handledAt evs) := by
  induction evs generalizing log s r last with
  | nil => exact ⟨last, h, .inl rfl⟩
  | cons e evs ih =>
    have hk0 := hk [] (List.nil_prefix ..)
    have hk' : ∀ l, l <+: evs → (Sys.run l (s.step e).2).2.calls.countP (unconnected a) ≤ k :=
      fun l hl => hk (e :: l) (List.cons_prefix_cons.2 ⟨rfl, hl⟩)
    have hs' : ∀ d', .setSuspended d' ∈ evs → d ≤ d' := fun d' h => hs d' (List.mem_cons_of_mem _ h)
    have step : ∀ n, last ≤ n → (∀ now, e = .handle now → n = now) → (n :: handledAt evs).Pairwise (· ≤ ·) →
        ∃ last', Stage a k d t (Sys.run (e :: evs) s).2 (r + refusedTo a (Sys.run (e :: evs) s).1) last' ∧
          (last' = n ∨ last' ∈ handledAt evs) := by
      intro n hn he hp
      obtain ⟨h1, h2⟩ := move_step (a := a) hi hd n e he fun d' h => hs d' (h ▸ List.mem_cons_self)
      obtain ⟨last', h3, h4⟩ := ih (Sys.inv_step hi e) h2 (stage_move hi hk0 h hn h1) hk' hp hs'
      refine ⟨last', ?_, h4⟩
      simp only [Sys.run, Sys.refusedTo_append]
      rwa [Nat.add_assoc] at h3
    cases e with
    | handle now =>
      rw [handledAt, List.pairwise_cons] at hc
      obtain ⟨last', h1, h2⟩ := step now (hc.1 now (by simp)) (fun n h => by cases h; rfl) hc.2
      refine ⟨last', h1, .inr ?_⟩
      rcases h2 with rfl | h2
      · exact List.mem_cons_self
      · exact List.mem_cons_of_mem _ h2
    | _ => exact step last (Nat.le_refl _) (fun n h => by cases h) hc

/-- **C134.** If at no time more than `k` calls to an address are without connection, then the number of failed
attempts to connect to it is at most `k` for each period of suspension: if the pool works from `t` to `t'` and
suspensions last `d` at least, it is at most `k * ((t' - t) / d + 1)`, however many calls are made. -/
theorem C134_rate (size k d t t' : Nat) (a : Addr) (evs : List SysEvent) (hk : AtMost k size a evs)
    (hc : (handledAt evs).Pairwise (· ≤ ·)) (ht : ∀ now ∈ handledAt evs, t ≤ now ∧ now ≤ t') (hd : 0 < d)
    (hd' : d ≤ 60000000000) (hs : ∀ d', .setSuspended d' ∈ evs → d ≤ d') :
    refusedTo a (Sys.run evs (.new size)).1 ≤ k * ((t' - t) / d + 1) := by
  have h0 : Stage a k d t (.new size) 0 t := .closed 0 (by simp [Sys.new]) (by omega) (.inl (by omega))
  obtain ⟨last, h1, h2⟩ := stage_run (Sys.inv_new size) (fun p h => by cases h; exact hd') h0 evs hk
    (List.pairwise_cons.2 ⟨fun n h => (ht n h).1, hc⟩) hs
  rw [Nat.zero_add] at h1
  have hlast : last - t ≤ t' - t := by
    rcases h2 with rfl | h2
    · omega
    · obtain ⟨h3, h4⟩ : t ≤ last ∧ last ≤ t' := ht last h2
      omega
  have hdiv : (last - t) / d ≤ (t' - t) / d := Nat.div_le_div_right hlast
  cases h1 with
  | closed j h1 h3 h4 =>
    have : j ≤ (last - t) / d + 1 := by
      cases j with
      | zero => exact Nat.zero_le _
      | succ j =>
        rw [Nat.succ_mul] at h3
        have := (Nat.le_div_iff_mul_le hd (x := j) (y := last - t)).2 (by omega)
        omega
    exact Nat.le_trans (Nat.le_trans (Nat.le_add_right _ _) h1) (Nat.mul_le_mul_left k (by omega))
  | free j h1 h3 h4 =>
    have := (Nat.le_div_iff_mul_le hd (x := j) (y := last - t)).2 (by omega)
    exact Nat.le_trans h1 (Nat.mul_le_mul_left k (by omega))
  | ending j N h0 h1 h3 =>
    have := (Nat.le_div_iff_mul_le hd (x := j) (y := last - t)).2 (by omega)
    exact Nat.le_trans (Nat.le_trans (Nat.le_add_right _ _) h1) (Nat.mul_le_mul_left k (by omega))

/-- What it takes to get a connection or to be refused. -/
theorem step_attempt {log : List Effect} {s : Sys} (hi : Sys.Inv log s) (e : SysEvent) (i : Nat) (b : Addr) :
    ((.refused i b ∈ (s.step e).1 ∨ ∃ c, .opened i b c ∈ (s.step e).1) →
      ∃ y ∈ s.calls, connects b y = true) ∧
    ∀ c, .took i b c ∈ (s.step e).1 →
      ∃ now p, e = .handle now ∧ s.pool = some p ∧ ∀ u, p.blacklist.lookup b = some u → u ≤ now := by
  have hset : ∀ k y c inner (s' : Sys) o, (∀ x ∈ (Sys.settle k y c inner s' o).1, x = .closed c ∨ ∃ j a, x = .returned j a c) := by
    intro k y c inner s' o x hx
    cases o with
    | ready v body =>
      simp only [Sys.settle] at hx
      split at hx <;> simp at hx <;> grind
    | _ => simp [Sys.settle] at hx <;> grind
  have hdrop : ∀ x ∈ s.dropPool.1, ∃ c, x = .closed c := by
    intro x hx
    unfold Sys.dropPool at hx
    split at hx
    · cases hx
    · obtain ⟨c, -, rfl⟩ := List.mem_map.1 hx
      exact ⟨c, rfl⟩
  cases e with
  | call p a v body => simp [Sys.step]
  | setSuspended d => simp [Sys.step]
  | dropPool =>
    refine ⟨?_, ?_⟩
    · rintro (h | ⟨c, h⟩) <;> obtain ⟨_, h⟩ := hdrop _ h <;> cases h
    · intro c h; obtain ⟨_, h⟩ := hdrop _ h; cases h
  | dropCall j =>
    simp only [Sys.step, Sys.dropCall]
    split
    · simp
    · split <;> simp
  | poll j r =>
    have hsettled : ∀ pre y c inner (s' : Sys) o, (∀ x ∈ pre, ∃ k c, x = Effect.io k c) →
        ((.refused i b ∈ pre ++ (Sys.settle j y c inner s' o).1 ∨
          ∃ c', .opened i b c' ∈ pre ++ (Sys.settle j y c inner s' o).1) → ∃ y ∈ s.calls, connects b y = true) ∧
        ∀ c', .took i b c' ∈ pre ++ (Sys.settle j y c inner s' o).1 →
          ∃ now p, SysEvent.poll j r = .handle now ∧ s.pool = some p ∧ ∀ u, p.blacklist.lookup b = some u → u ≤ now := by
      intro pre y c inner s' o hpre
      have : ∀ x ∈ pre ++ (Sys.settle j y c inner s' o).1,
          (∃ k c, x = .io k c) ∨ x = .closed c ∨ ∃ j a, x = .returned j a c := by
        intro x hx
        rcases List.mem_append.1 hx with hx | hx
        · exact .inl (hpre x hx)
        · exact .inr (hset j y c inner s' o x hx)
      refine ⟨?_, fun c' h => ?_⟩
      · rintro (h | ⟨c', h⟩) <;> rcases this _ h with ⟨_, _, h⟩ | h | ⟨_, _, h⟩ <;> cases h
      · rcases this _ h with ⟨_, _, h⟩ | h | ⟨_, _, h⟩ <;> cases h
    simp only [Sys.step, Sys.poll]
    split
    · simp
    · rename_i y hy
      split
      · split <;> simp
      · exact hsettled [] _ _ _ _ _ (by simp)
      · simp
      · rename_i inner b' hst
        have hb : b' = y.addr := hi.connecting j y inner b' hy hst
        have hcon : b' = b → ∃ y ∈ s.calls, connects b y = true := fun h =>
          ⟨y, List.mem_of_getElem? hy, by simp [connects, hst, ← hb, h]⟩
        split
        · have := hset j y s.next inner { s with next := s.next + 1 } (callStep y.proc inner .connected)
          refine ⟨?_, fun c' h => ?_⟩
          · rintro (h | ⟨c', h⟩)
            · rcases List.mem_cons.1 h with h | h
              · cases h
              · rcases this _ h with h | ⟨_, _, h⟩ <;> cases h
            · rcases List.mem_cons.1 h with h | h
              · cases h; exact hcon rfl
              · rcases this _ h with h | ⟨_, _, h⟩ <;> cases h
          · rcases List.mem_cons.1 h with h | h
            · cases h
            · rcases this _ h with h | ⟨_, _, h⟩ <;> cases h
        · refine ⟨?_, fun c' h => by simp at h⟩
          rintro (h | ⟨c', h⟩)
          · simp only [List.mem_singleton] at h
            cases h; exact hcon rfl
          · simp at h
        · simp
      · exact hsettled [_] _ _ _ _ _ (by simp)
      · simp
  | handle now =>
    simp only [Sys.step, Sys.handle]
    split
    · rename_i p cmd q hp hq
      split
      · rename_i o p' hs
        cases cmd with
        | acquire a k =>
          have hl := hi.pool
          rw [hp] at hl
          obtain ⟨size, ip, hl, -⟩ := hl
          obtain ⟨p'', e1, -, -⟩ := step_like' hl _ (room_of_step hs)
          rw [hs] at e1
          cases e1
          have hready : ∀ c, (ip.step size (.acquire a now)).1 = .reply (.ready c) →
              ∀ u, p.blacklist.lookup a = some u → u ≤ now := by
            intro c hc u hu
            rw [hl.blacklist a] at hu
            simp only [IdlePool.step] at hc
            split at hc
            · cases hc
            · rename_i hn
              exact Nat.not_lt.1 fun h => hn ⟨u, hu, h⟩
          have hreply : ∃ f, (ip.step size (.acquire a now)).1 = .reply f := by
            simp only [IdlePool.step]
            split
            · exact ⟨_, rfl⟩
            · split <;> exact ⟨_, rfl⟩
          obtain ⟨f, hf⟩ := hreply
          simp only [Cmd.event, hf]
          unfold Sys.reply
          cases f with
          | ready c =>
            refine ⟨?_, fun c' h => ?_⟩
            · split <;> simp
            · split at h <;> simp at h
              obtain ⟨rfl, rfl, rfl⟩ := h
              exact ⟨now, p, rfl, hp, hready _ hf⟩
          | _ => split <;> simp
        | release a c =>
          split <;> first | (simp; done) | (rename_i h; cases h)
        | blacklist a =>
          split <;> first | (simp; done) | (rename_i h; cases h)
      · refine ⟨?_, ?_⟩
        · rintro (h | ⟨c, h⟩) <;> obtain ⟨_, h⟩ := hdrop _ h <;> cases h
        · intro c h; obtain ⟨_, h⟩ := hdrop _ h; cases h
    · simp

/-- Until a time nothing is attempted at `a`. -/
structure Shut (a : Addr) (d t : Nat) (s : Sys) : Prop where
  long : Long d s
  calm : ∀ y ∈ s.calls, connects a y = false
  entry : ∀ p, s.pool = some p → ∃ u, p.blacklist.lookup a = some u ∧ t + d ≤ u

theorem shut_step {a : Addr} {d t : Nat} {log : List Effect} {s : Sys} (hi : Sys.Inv log s) (h : Shut a d t s)
    (hd : 0 < d) (e : SysEvent) (he : ∀ now, e = .handle now → t ≤ now ∧ now < t + d)
    (hs : ∀ d', e = .setSuspended d' → d ≤ d') : Shut a d t (s.step e).2 := by
  obtain ⟨n, h1, h2, h3⟩ : ∃ n : Nat, t ≤ n ∧ n < t + d ∧ ∀ now, e = .handle now → n = now := by
    cases e with
    | handle now => exact ⟨now, (he now rfl).1, (he now rfl).2, fun n h => by cases h; rfl⟩
    | _ => exact ⟨t, Nat.le_refl _, by omega, fun n h => by cases h⟩
  obtain ⟨hm, hlong⟩ := move_step (a := a) hi h.long n e h3 hs
  generalize refusedTo a (s.step e).1 = x at hm
  have hno : ∀ p, s.pool = some p → ¬ ∀ u, p.blacklist.lookup a = some u → u ≤ n := by
    intro p hp hall
    obtain ⟨u, hu, hu'⟩ := h.entry p hp
    exact absurd (Nat.lt_of_lt_of_le h2 hu') (Nat.not_lt.2 (hall u hu))
  have hmem : ∀ i y, s.calls[i]? = some y → connects a y = false := fun i y hy =>
    h.calm y (List.mem_of_getElem? hy)
  refine ⟨hlong, ?_, ?_⟩
  · intro y' hy'
    cases hm with
    | quiet hq =>
      cases hc : connects a y' with
      | false => rfl
      | true =>
        obtain ⟨i, hi⟩ := List.mem_iff_getElem?.1 hy'
        obtain ⟨y, h4, -, h5⟩ := hq.calls.2 i y' hi (connects_unconnected hc)
        rw [hmem i y h4] at h5
        exact absurd (h5 hc) (by simp)
    | call hc hy =>
      rw [hc] at hy'
      rcases List.mem_append.1 hy' with hy' | hy'
      · exact h.calm y' hy'
      · rw [List.mem_singleton] at hy'
        rwa [hy']
    | refuse hy hcon => rw [hmem _ _ hy] at hcon; cases hcon
    | grant hy hu hcon hc hy2 hqueue hpool hpool' hentry => exact absurd hentry (hno _ hpool)
    | report hc => exact h.calm y' (hc ▸ hy')
  · intro p' hp'
    cases hm with
    | quiet hq =>
      obtain ⟨p, hp, h4 | h4⟩ := hq.entry p' hp'
      · rw [h4]
        exact h.entry p hp
      · exact absurd h4 (hno p hp)
    | call hc hy hqueue hpool => exact h.entry p' (hpool ▸ hp')
    | refuse hy hcon => rw [hmem _ _ hy] at hcon; cases hcon
    | grant hy hu hcon hc hy2 hqueue hpool hpool' hentry => exact absurd hentry (hno _ hpool)
    | report hc hqueue hpool hpool' hentry =>
      rw [hpool'] at hp'
      cases hp'
      obtain ⟨u, hu, hu'⟩ := hentry
      exact ⟨u, hu, Nat.le_trans (by omega) hu'⟩

theorem handle_reported {a : Addr} {d : Nat} {t : Time} {log : List Effect} {s : Sys} (hi : Sys.Inv log s)
    (hd : Long d s) (h : .reported a ∈ (s.handle t).1) :
    (s.handle t).2.calls = s.calls ∧ ∃ p', (s.handle t).2.pool = some p' ∧
      ∃ u, p'.blacklist.lookup a = some u ∧ t + d ≤ u := by
  unfold Sys.handle at h ⊢
  split at h
  · rename_i p cmd q hp hq
    have hl := hi.pool
    rw [hp] at hl
    obtain ⟨size, ip, hl, -⟩ := hl
    split at h
    · rename_i o p' hs
      obtain ⟨p'', e1, e2, -⟩ := step_like' hl _ (room_of_step hs)
      rw [hs] at e1
      cases e1
      cases cmd with
      | acquire b i =>
        split at h
        · exact absurd h (reply_unreported _ _ _ _ a)
        · simp at h
        · rename_i h1; cases h1
        · cases h
      | release b c =>
        split at h
        · exact absurd h (reply_unreported _ _ _ _ a)
        · simp at h
        · rename_i h1; cases h1
        · cases h
      | blacklist b =>
        have hb : a = b := by simpa [Cmd.event, IdlePool.step] using h
        subst hb
        have hentry := e2.blacklist a
        simp only [Cmd.event, IdlePool.step, if_pos] at hentry hs
        refine ⟨rfl, p', rfl, _, hentry, ?_⟩
        rw [← hl.duration]
        exact Nat.add_le_add_left (hd p hp) t
    · unfold Sys.dropPool at h
      split at h <;> simp at h
  · cases h

/-- **C134.** When the pool has been told at `t` that connecting to an address failed, and no call is connecting to
it any more, then until `t + d`, where suspensions last `d` at least, no call gets a connection to it, nor is
one attempted, whatever calls are made. -/
theorem C134_quiet (size d : Nat) (t : Time) (a : Addr) (evs evs' : List SysEvent) (hd : 0 < d)
    (hd' : d ≤ 60000000000) (hs : ∀ d', .setSuspended d' ∈ evs ++ evs' → d ≤ d')
    (hr : .reported a ∈ ((Sys.run evs (.new size)).2.step (.handle t)).1)
    (hc : ∀ y ∈ (Sys.run evs (.new size)).2.calls, y.addr = a → ∀ inner b, y.st ≠ .replied inner (.connecting b))
    (ht : ∀ now ∈ handledAt evs', t ≤ now ∧ now < t + d) (i : Nat) :
    ∀ x ∈ (Sys.run evs' (Sys.run (evs ++ [.handle t]) (.new size)).2).1,
      x ≠ .refused i a ∧ ∀ c, x ≠ .opened i a c ∧ x ≠ .took i a c := by
  have hi := Sys.inv_run (Sys.inv_new size) evs
  have hlong : ∀ (l : List SysEvent) (s : Sys) (log : List Effect), Sys.Inv log s → Long d s →
      (∀ d', .setSuspended d' ∈ l → d ≤ d') → Long d (Sys.run l s).2 := by
    intro l
    induction l with
    | nil => intro s log _ h _; exact h
    | cons e l ih =>
      intro s log hi h hs
      obtain ⟨n, hn⟩ : ∃ n : Time, ∀ now, e = .handle now → n = now := by
        cases e with
        | handle now => exact ⟨now, fun n h => by cases h; rfl⟩
        | _ => exact ⟨0, fun n h => by cases h⟩
      exact ih _ _ (Sys.inv_step hi e) (move_step (a := a) hi h n e hn fun d' h => hs d' (h ▸ List.mem_cons_self)).2
        fun d' h => hs d' (List.mem_cons_of_mem _ h)
  have hl := hlong evs (.new size) [] (Sys.inv_new size) (fun p h => by cases h; exact hd')
    fun d' h => hs d' (List.mem_append_left _ h)
  rw [sys_run_append]
  generalize (Sys.run evs (.new size)).2 = s at hi hl hr hc
  have h0 : Shut a d t (s.step (.handle t)).2 := by
    obtain ⟨h1, p', h2, u, h3, h4⟩ := handle_reported hi hl hr
    refine ⟨(move_handle (a := a) hi hl t).2, fun y hy => ?_, fun p hp => ?_⟩
    · have := hc y (h1 ▸ hy)
      cases hcon : connects a y with
      | false => rfl
      | true =>
        simp only [connects, Bool.and_eq_true, decide_eq_true_eq] at hcon
        obtain ⟨h5, h6⟩ := hcon
        split at h6
        · rename_i inner b hst
          exact absurd hst (this h5 inner b)
        · cases h6
    · rw [Sys.step, h2] at hp
      cases hp
      exact ⟨u, h3, h4⟩
  have hi' := Sys.inv_step hi (.handle t)
  have hs' : ∀ d', .setSuspended d' ∈ evs' → d ≤ d' := fun d' h => hs d' (List.mem_append_right _ h)
  simp only [Sys.run]
  generalize (s.step (.handle t)).2 = s1 at h0 hi'
  generalize [] ++ (Sys.run evs (.new size)).1 ++ (s.step (.handle t)).1 = log at hi'
  clear hr hc hi hl hs
  induction evs' generalizing s1 log with
  | nil => intro x hx; cases hx
  | cons e es ih =>
    intro x hx
    have he : ∀ now, e = .handle now → t ≤ now ∧ now < t + d := by
      rintro now rfl
      exact ht now (by simp [handledAt])
    rcases List.mem_append.1 hx with hx | hx
    · obtain ⟨h1, h2⟩ := step_attempt hi' e i a
      have hno : ¬ ∃ y ∈ s1.calls, connects a y = true := by
        rintro ⟨y, hy, hcy⟩
        rw [h0.calm y hy] at hcy
        cases hcy
      refine ⟨fun h => hno (h1 (.inl (h ▸ hx))), fun c => ⟨fun h => hno (h1 (.inr ⟨c, h ▸ hx⟩)), fun h => ?_⟩⟩
      obtain ⟨now, p, h3, h4, h5⟩ := h2 c (h ▸ hx)
      obtain ⟨u, h6, h7⟩ := h0.entry p h4
      have h8 : u ≤ now := h5 u h6
      have h9 : now < t + d := (he now h3).2
      exact absurd (Nat.lt_of_lt_of_le h9 h7) (Nat.not_lt.2 h8)
    · refine ih (fun now h => ht now ?_) (fun d' h => hs' d' (List.mem_cons_of_mem _ h)) (s1.step e).2
        (shut_step hi' h0 hd e he fun d' h => hs' d' (h ▸ List.mem_cons_self)) _ (Sys.inv_step hi' e) x hx
      cases e <;> simp only [handledAt] <;> first | exact h | exact List.mem_cons_of_mem _ h

/-! ### The bound is reached -/

/-- How many calls are made. -/
def callsMade (evs : List SysEvent) : Nat := evs.countP fun | .call _ _ _ _ => true | _ => false

/-- Only new calls are without connection. -/
theorem waiters_step {log : List Effect} {s : Sys} (hi : Sys.Inv log s) (a : Addr) (e : SysEvent) :
    (s.step e).2.calls.countP (unconnected a) ≤ s.calls.countP (unconnected a) + callsMade [e] := by
  obtain ⟨n, hn⟩ : ∃ n : Time, ∀ now, e = .handle now → n = now := by
    cases e with
    | handle now => exact ⟨now, fun n h => by cases h; rfl⟩
    | _ => exact ⟨0, fun n h => by cases h⟩
  by_cases hc : ∃ p b v body, e = .call p b v body
  · obtain ⟨p, b, v, body, rfl⟩ := hc
    simp only [Sys.step, Sys.call, Sys.send_calls, List.countP_append]
    refine Nat.add_le_add_left (Nat.le_trans List.countP_le_length (Nat.le_of_eq ?_)) _
    rfl
  · obtain ⟨hm, -⟩ := move_step (a := a) (d := 0) hi (fun _ _ => Nat.zero_le _) n e hn fun _ _ => Nat.zero_le _
    have hlen : (s.step e).2.calls.length = s.calls.length :=
      Sys.step_length s e fun p a v b h => hc ⟨p, a, v, b, h⟩
    generalize refusedTo a (s.step e).1 = x at hm
    refine Nat.le_trans ?_ (Nat.le_add_right _ _)
    cases hm with
    | quiet hq =>
      exact countP_le fun i y' hy hp => by
        obtain ⟨y, h1, h2, -⟩ := hq.calls.2 i y' hy hp
        exact ⟨y, h1, h2⟩
    | call hc => rw [hc] at hlen; simp at hlen
    | refuse hy hcon hc hy' =>
      rw [hc]
      exact Nat.le_trans (Nat.le_succ _) (Nat.le_of_eq (count_less hy (connects_unconnected hcon) hy'))
    | grant hy hu hcon hc hy' =>
      rw [hc]
      refine countP_le fun i z hz hp => ?_
      rw [List.getElem?_set] at hz
      split at hz
      · rename_i hij; subst hij; exact ⟨_, hy, hu⟩
      · exact ⟨z, hz, hp⟩
    | report hc => exact Nat.le_of_eq (by rw [hc])

theorem waiters_run {log : List Effect} {s : Sys} (hi : Sys.Inv log s) (a : Addr) (evs : List SysEvent) :
    (Sys.run evs s).2.calls.countP (unconnected a) ≤ s.calls.countP (unconnected a) + callsMade evs := by
  induction evs generalizing log s with
  | nil => exact Nat.le_refl _
  | cons e es ih =>
    have h1 := waiters_step hi a e
    have h2 := ih (Sys.inv_step hi e)
    have h3 : callsMade (e :: es) = callsMade [e] + callsMade es := by
      rw [callsMade, callsMade, callsMade, ← List.countP_append]; rfl
    simp only [Sys.run]
    omega

/-- Calls that are answered at once, at time `t`. -/
def asks (c : Proc) (v : Val) (body : Bytes) (a : Addr) (t : Time) : Nat → List SysEvent
  | 0 => []
  | k + 1 => .call c a v body :: .handle t :: asks c v body a t k

/-- The calls from `n` on fail to connect, and that is reported. -/
def failsFrom (t : Time) : Nat → Nat → List SysEvent
  | _, 0 => []
  | n, k + 1 => .poll n .failed :: .handle t :: failsFrom t (n + 1) k

theorem asks_run (c : Proc) (v : Val) (body : Bytes) (a : Addr) (t : Time) (k : Nat) (p : Pool)
    (calls : List PCall) (n : Nat) (hc : p.connections = [])
    (hl : ∀ u, p.blacklist.lookup a = some u → u ≤ t) :
    ∃ bl, Sys.run (asks c v body a t k) ⟨some p, [], calls, n⟩ =
      ([], ⟨some { p with blacklist := bl }, [],
        calls ++ List.replicate k ⟨c, a, .replied (.new v body) (.connecting a)⟩, n⟩) := by
  induction k generalizing p calls with
  | zero => exact ⟨p.blacklist, by simp [asks, Sys.run]⟩
  | succ k ih =>
    have h1 : ∃ bl, (∀ u, bl.lookup a = some u → u ≤ t) ∧
        p.handleAcquire a t = .ok (.connecting a, { p with blacklist := bl }) := by
      cases h : p.blacklist.lookup a with
      | none =>
        obtain ⟨z, cs, l, q, b, d⟩ := p
        cases hc
        exact ⟨b, hl, by simp [Pool.handleAcquire, h, Pool.acquire, BTreeMap.firstFrom]⟩
      | some u =>
        refine ⟨Pool.unlist a p.blacklist, by simp [lookup_unlist], ?_⟩
        have : ¬ u > t := Nat.not_lt.2 (hl u h)
        simp [Pool.handleAcquire, h, this, Pool.acquire, hc, BTreeMap.firstFrom]
    obtain ⟨bl, h1, h2⟩ := h1
    obtain ⟨bl', h3⟩ := ih { p with blacklist := bl } (calls ++ [⟨c, a, .replied (.new v body) (.connecting a)⟩]) hc h1
    refine ⟨bl', ?_⟩
    simp only [asks, Sys.run, Sys.step, Sys.call, Sys.send, Sys.handle, Cmd.event, Pool.step, h2, bind, Res.bind,
      List.nil_append, Sys.reply, List.getElem?_append_right (Nat.le_refl _), Nat.sub_self, Sys.setCall,
      List.getElem?_cons_zero, List.set_append_right _ _ (Nat.le_refl _), List.set_cons_zero]
    rw [h3]
    simp [List.replicate_succ]

theorem fails_run (c : Proc) (a : Addr) (inner : CallInner) (t : Time) (k : Nat) (p : Pool)
    (calls : List PCall) (n : Nat) (hd : p.suspended = 60000000000) (ht : t + 60000000000 < timeEnd) :
    ∃ bl log, Sys.run (failsFrom t calls.length k)
        ⟨some p, [], calls ++ List.replicate k ⟨c, a, .replied inner (.connecting a)⟩, n⟩ =
      (log, ⟨some { p with blacklist := bl }, [], calls ++ List.replicate k ⟨c, a, .failed .other⟩, n⟩) ∧
      refusedTo a log = k ∧
      (∀ u, (bl.lookup a = some u → u ≤ t + 60000000000) ∨ (k = 0 ∧ bl = p.blacklist)) := by
  induction k generalizing p calls with
  | zero => exact ⟨p.blacklist, [], by simp [failsFrom, Sys.run], rfl, fun _ => .inr ⟨rfl, rfl⟩⟩
  | succ k ih =>
    obtain ⟨bl, log, h1, h2, h3⟩ := ih { p with blacklist := Pool.enlist a (t + 60000000000) p.blacklist }
      (calls ++ [⟨c, a, .failed .other⟩]) hd
    have hs : p.handleBlacklist a t =
        .ok { p with blacklist := Pool.enlist a (t + 60000000000) p.blacklist } := by
      simp [Pool.handleBlacklist, hd, ht]
    refine ⟨bl, .refused calls.length a :: .reported a :: log, ?_, ?_, ?_⟩
    · rw [List.length_append, List.length_singleton] at h1
      simp only [failsFrom, Sys.run, Sys.step, Sys.poll, List.getElem?_append_right (Nat.le_refl _), Nat.sub_self,
        List.replicate_succ, List.getElem?_cons_zero, Sys.setCall, Sys.send, Sys.handle, Cmd.event, Pool.step, hs,
        bind, Res.bind, List.set_append_right _ _ (Nat.le_refl _), List.set_cons_zero, List.nil_append]
      rw [List.append_assoc] at h1
      simp only [List.singleton_append, List.append_assoc] at h1
      rw [h1]
      rfl
    · rw [← h2]; simp [refusedTo]
    · intro u
      refine .inl fun h => ?_
      rcases h3 u with h3 | ⟨-, h3⟩
      · exact h3 h
      · rw [h3, Pool.enlist, List.lookup_cons_self] at h
        cases h
        exact Nat.le_refl _

/-- `k` calls at time `t`, of which none gets a connection. -/
def roundOf (c : Proc) (v : Val) (body : Bytes) (a : Addr) (t : Time) (n k : Nat) : List SysEvent :=
  asks c v body a t k ++ failsFrom t n k

/-- Such calls when the pool works for the first time and whenever a suspension is over. -/
def rounds (c : Proc) (v : Val) (body : Bytes) (a : Addr) (k : Nat) : Nat → List SysEvent
  | 0 => []
  | m + 1 => rounds c v body a k m ++ roundOf c v body a (m * 60000000000) (m * k) k

omit [FloatText] in
theorem callsMade_append (l l' : List SysEvent) : callsMade (l ++ l') = callsMade l + callsMade l' :=
  List.countP_append

omit [FloatText] in
theorem callsMade_round (c : Proc) (v : Val) (body : Bytes) (a : Addr) (t : Time) (n k : Nat) :
    callsMade (roundOf c v body a t n k) = k := by
  have h1 : callsMade (asks c v body a t k) = k := by
    induction k with
    | zero => rfl
    | succ k ih => simp only [asks, callsMade, List.countP_cons] at ih ⊢; simp [ih]
  have h2 : ∀ n k, callsMade (failsFrom t n k) = 0 := by
    intro n k
    induction k generalizing n with
    | zero => rfl
    | succ k ih => have := ih (n + 1); simp only [failsFrom, callsMade, List.countP_cons] at this ⊢; simp [this]
  rw [roundOf, callsMade_append, h1, h2]; rfl

omit [FloatText] in
theorem handledAt_append (l l' : List SysEvent) : handledAt (l ++ l') = handledAt l ++ handledAt l' := by
  induction l with
  | nil => rfl
  | cons e l ih => cases e <;> simp [handledAt, ih]

omit [FloatText] in
theorem handledAt_round (c : Proc) (v : Val) (body : Bytes) (a : Addr) (t : Time) (n k : Nat) :
    ∀ now ∈ handledAt (roundOf c v body a t n k), now = t := by
  have h1 : ∀ now ∈ handledAt (asks c v body a t k), now = t := by
    induction k with
    | zero => intro now h; cases h
    | succ k ih => intro now h; simp only [asks, handledAt, List.mem_cons] at h; exact h.elim id (ih now)
  have h2 : ∀ n k, ∀ now ∈ handledAt (failsFrom t n k), now = t := by
    intro n k
    induction k generalizing n with
    | zero => intro now h; cases h
    | succ k ih => intro now h; simp only [failsFrom, handledAt, List.mem_cons] at h; exact h.elim id (ih _ now)
  intro now h
  rw [roundOf, handledAt_append] at h
  exact (List.mem_append.1 h).elim (h1 now) (h2 _ _ now)

omit [FloatText] in
theorem prefix_split {α : Type} {l a b : List α} (h : l <+: a ++ b) : l <+: a ∨ ∃ l', l = a ++ l' ∧ l' <+: b := by
  obtain ⟨z, hz⟩ := h
  rcases List.append_eq_append_iff.1 hz with ⟨x, h1, h2⟩ | ⟨x, h1, h2⟩
  · exact .inl ⟨x, h1.symm⟩
  · exact .inr ⟨x, h1, z, h2.symm⟩

theorem rounds_run (size : Nat) (c : Proc) (v : Val) (body : Bytes) (a : Addr) (k : Nat) (hk : 0 < k) (m : Nat)
    (ht : m * 60000000000 < timeEnd) :
    (∃ p calls, (Sys.run (rounds c v body a k m) (.new size)).2 = ⟨some p, [], calls, 0⟩ ∧ p.connections = [] ∧
      p.suspended = 60000000000 ∧ (∀ u, p.blacklist.lookup a = some u → u ≤ m * 60000000000) ∧
      calls.length = m * k ∧ calls.countP (unconnected a) = 0) ∧
    refusedTo a (Sys.run (rounds c v body a k m) (.new size)).1 = k * m ∧
    AtMost k size a (rounds c v body a k m) ∧
    (handledAt (rounds c v body a k m)).Pairwise (· ≤ ·) ∧
    (∀ now ∈ handledAt (rounds c v body a k m), now ≤ (m - 1) * 60000000000) := by
  induction m with
  | zero =>
    refine ⟨⟨.withSize size, [], rfl, rfl, rfl, by simp [Pool.withSize], by simp, rfl⟩, rfl, ?_, List.Pairwise.nil,
      fun now h => by cases h⟩
    intro l hl
    rw [rounds, List.prefix_nil] at hl
    subst hl
    exact Nat.zero_le _
  | succ m ih =>
    have hm : m * 60000000000 + 60000000000 < timeEnd := by rwa [Nat.succ_mul] at ht
    obtain ⟨⟨p, calls, h1, h2, h3, h4, h5, h6⟩, h7, h8, h9, h10⟩ := ih (Nat.lt_of_le_of_lt (Nat.le_add_right _ _) hm)
    obtain ⟨bl, ha⟩ := asks_run c v body a (m * 60000000000) k p calls 0 h2 h4
    obtain ⟨bl', log, hf, hlog, hbl⟩ := fails_run c a (.new v body) (m * 60000000000) k { p with blacklist := bl }
      calls 0 h3 hm
    have hrun : Sys.run (roundOf c v body a (m * 60000000000) (m * k) k) ⟨some p, [], calls, 0⟩ =
        (log, ⟨some { p with blacklist := bl' }, [], calls ++ List.replicate k ⟨c, a, .failed .other⟩, 0⟩) := by
      rw [roundOf, sys_run_append, ha, ← h5, hf]
      rfl
    refine ⟨?_, ?_, ?_, ?_, ?_⟩
    · refine ⟨{ p with blacklist := bl' }, _, by rw [rounds, sys_run_append, h1, hrun], h2, h3, ?_, ?_, ?_⟩
      · intro u hu
        rw [Nat.succ_mul]
        exact ((hbl u).resolve_right fun h => by omega) hu
      · simp [h5, Nat.succ_mul]
      · simp [List.countP_append, h6, List.countP_replicate, unconnected]
    · rw [rounds, sys_run_append, h1, hrun, Sys.refusedTo_append, h7, hlog]
      exact (Nat.mul_succ k m).symm
    · intro l hl
      rw [rounds] at hl
      rcases prefix_split hl with hl | ⟨l', rfl, hl'⟩
      · exact h8 l hl
      · have hi := Sys.inv_run (Sys.inv_new size) (rounds c v body a k m)
        rw [h1] at hi
        rw [sys_run_append, h1]
        have h11 := waiters_run hi a l'
        have h12 : callsMade l' ≤ k := by
          rw [← callsMade_round c v body a (m * 60000000000) (m * k) k]
          exact hl'.sublist.countP_le
        have h13 : Sys.calls ⟨some p, [], calls, 0⟩ = calls := rfl
        rw [h13, h6] at h11
        exact Nat.le_trans h11 (by omega)
    · rw [rounds, handledAt_append, List.pairwise_append]
      refine ⟨h9, ?_, ?_⟩
      · refine List.Pairwise.imp_of_mem (R := fun _ _ => True) ?_ (List.pairwise_of_forall fun _ _ => trivial)
        intro x y hx hy _
        rw [handledAt_round _ _ _ _ _ _ _ x hx, handledAt_round _ _ _ _ _ _ _ y hy]
        exact Nat.le_refl _
      · intro x hx y hy
        rw [handledAt_round _ _ _ _ _ _ _ y hy]
        exact Nat.le_trans (h10 x hx) (Nat.mul_le_mul_right _ (Nat.sub_le _ _))
    · intro x hx
      rw [rounds, handledAt_append] at hx
      rcases List.mem_append.1 hx with hx | hx
      · exact Nat.le_trans (h10 x hx) (Nat.mul_le_mul_right _ (by omega))
      · rw [handledAt_round _ _ _ _ _ _ _ x hx]
        exact Nat.le_refl _

omit [FloatText] in
theorem rounds_unset (c : Proc) (v : Val) (body : Bytes) (a : Addr) (k m d : Nat) :
    .setSuspended d ∉ rounds c v body a k m := by
  have h1 : ∀ t k, .setSuspended d ∉ asks c v body a t k := by
    intro t k
    induction k with
    | zero => exact List.not_mem_nil
    | succ k ih => simpa [asks] using ih
  have h2 : ∀ t n k, .setSuspended d ∉ failsFrom t n k := by
    intro t n k
    induction k generalizing n with
    | zero => exact List.not_mem_nil
    | succ k ih => simpa [failsFrom] using ih (n + 1)
  induction m with
  | zero => exact List.not_mem_nil
  | succ m ih => simp [rounds, roundOf, ih, h1, h2]

/-- **C134.** The bound is reached: for any `k` and `m` there are executions with never more than `k` calls without
connection and with `k * (m + 1)` failed attempts while the pool works for `m` periods of suspension. -/
theorem C134_reached (size k m : Nat) (a : Addr) (c : Proc) (v : Val) (body : Bytes)
    (hm : (m + 1) * 60000000000 < 2 ^ 63 * 1000000000) :
    ∃ evs, AtMost k size a evs ∧ (handledAt evs).Pairwise (· ≤ ·) ∧
      (∀ now ∈ handledAt evs, 0 ≤ now ∧ now ≤ m * 60000000000) ∧ (∀ d, .setSuspended d ∉ evs) ∧
      refusedTo a (Sys.run evs (.new size)).1 = k * ((m * 60000000000 - 0) / 60000000000 + 1) := by
  rcases Nat.eq_zero_or_pos k with rfl | hk
  · refine ⟨[], fun l hl => ?_, List.Pairwise.nil, fun now h => absurd h List.not_mem_nil,
      fun d h => List.not_mem_nil h, ?_⟩
    · rw [List.prefix_nil] at hl
      subst hl
      exact Nat.zero_le _
    · rw [Nat.zero_mul]; rfl
  · obtain ⟨-, h1, h2, h3, h4⟩ := rounds_run size c v body a k hk (m + 1) hm
    refine ⟨rounds c v body a k (m + 1), h2, h3, fun now h => ⟨Nat.zero_le _, by simpa using h4 now h⟩, ?_, ?_⟩
    · exact fun d h => rounds_unset c v body a k (m + 1) d h
    · rw [h1, Nat.sub_zero, Nat.mul_div_cancel _ (by decide)]

namespace BackoffExamples

/-- `C134_rate`, `C134_reached`: three calls at a time for two minutes make nine attempts, and no more. -/
example (a : Addr) (c : Proc) (v : Val) (body : Bytes) : ∃ evs, AtMost 3 1 a evs ∧
    refusedTo a (Sys.run evs (.new 1)).1 = 9 ∧ refusedTo a (Sys.run evs (.new 1)).1 ≤ 3 * (120000000000 / 60000000000 + 1) := by
  obtain ⟨evs, h1, h2, h3, h4, h5⟩ := C134_reached 1 3 2 a c v body (by decide)
  exact ⟨evs, h1, h5, C134_rate 1 3 60000000000 0 120000000000 a evs h1 h2 h3 (by decide) (by decide)
    fun d h => absurd h (h4 d)⟩

/-- A call that is refused. -/
def refusal (a : Addr) (c : Proc) (v : Val) (body : Bytes) : List SysEvent :=
  [.call c a v body, .handle 0, .poll 0 .failed]

theorem refusal_run (a : Addr) (c : Proc) (v : Val) (body : Bytes) : Sys.run (refusal a c v body) (.new 1) =
    ([.refused 0 a], ⟨some (.withSize 1), [.blacklist a], [⟨c, a, .failed .other⟩], 0⟩) := by
  simp [refusal, Sys.run, Sys.new, Sys.step, Sys.call, Sys.send, Sys.handle, Cmd.event, Pool.step,
    Pool.handleAcquire, Pool.withSize, Pool.acquire, BTreeMap.firstFrom, Sys.reply, Sys.setCall, Sys.poll, bind, Res.bind]

/-- `C134_quiet`: for a minute the next calls get nothing, -/
example (a : Addr) (c : Proc) (v : Val) (body : Bytes) (r : IoResult) :
    ∀ x ∈ (Sys.run [.call c a v body, .handle 59999999999, .poll 1 r]
      (Sys.run (refusal a c v body ++ [.handle 0]) (.new 1)).2).1, x ≠ .refused 1 a ∧ ∀ d, x ≠ .opened 1 a d ∧ x ≠ .took 1 a d := by
  refine C134_quiet 1 60000000000 0 a (refusal a c v body) _ (by decide) (by decide) (by simp [refusal]) ?_ ?_ ?_ 1
  · rw [refusal_run]
    have : (60000000000 : Nat) < timeEnd := by decide
    simp [Sys.step, Sys.handle, Cmd.event, Pool.step, Pool.handleBlacklist, Pool.withSize, this, bind, Res.bind]
  · rw [refusal_run]; simp
  · intro now h
    simp only [handledAt, List.mem_singleton] at h
    subst h
    decide

/-- and then the next attempt is made. -/
example (a : Addr) (c : Proc) (v : Val) (body : Bytes) :
    .refused 1 a ∈ (Sys.run [.call c a v body, .handle 60000000000, .poll 1 .failed]
      (Sys.run (refusal a c v body ++ [.handle 0]) (.new 1)).2).1 := by
  rw [sys_run_append, refusal_run]
  have : (60000000000 : Nat) < timeEnd := by decide
  simp [Sys.run, Sys.step, Sys.handle, Cmd.event, Pool.step, Pool.handleBlacklist, Pool.withSize, this, bind, Res.bind,
    Sys.call, Sys.send, Pool.handleAcquire, Pool.enlist, Pool.unlist, Pool.acquire, BTreeMap.firstFrom, Sys.reply,
    Sys.setCall, Sys.poll]

end BackoffExamples

end

end Htrpc
