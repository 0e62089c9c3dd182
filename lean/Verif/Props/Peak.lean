/-
C137: at most as many connections to an address as calls to it at a time.
-/
import Verif.Lemmas.Peak

namespace Htrpc
open Spec

/-- The connections to `a` that there will be when all commands have been handled. -/
def need (a : Addr) (s : Sys) : Nat :=
  s.calls.countP (keeps a) + match s.pool with
    | none => 0
    | some p => demand a s.calls s.queue (idleTo a p)

theorem need_eq {a : Addr} {s s' : Sys} (h1 : s'.pool = s.pool) (h2 : s'.queue = s.queue) (h3 : s'.calls = s.calls) :
    need a s' = need a s := by
  rw [need, need, h1, h2, h3]

/-- A call changes its state and does not wait afterwards. -/
theorem need_set {a : Addr} {s : Sys} {i : Nat} {y y' : PCall} (hy : s.calls[i]? = some y) (hw : waitsFor a y' = false) :
    need a (s.setCall i y') + (if keeps a y = true then 1 else 0) ≤
      need a s + (if keeps a y' = true then 1 else 0) := by
  obtain ⟨hi, rfl⟩ := List.getElem?_eq_some_iff.1 hy
  have hc : (s.calls.set i y').countP (keeps a) + (if keeps a s.calls[i] = true then 1 else 0) =
      s.calls.countP (keeps a) + (if keeps a y' = true then 1 else 0) := by
    rw [List.countP_set hi]
    split
    · rename_i h
      have : 0 < s.calls.countP (keeps a) := List.countP_pos_iff.2 ⟨_, List.getElem_mem hi, h⟩
      omega
    · omega
  have hd : ∀ n, demand a (s.calls.set i y') s.queue n ≤ demand a s.calls s.queue n := by
    intro n
    refine demand_calls (fun j b _ h => ?_) n
    rw [aliveAt] at h ⊢
    by_cases hj : i = j
    · subst hj
      rw [List.getElem?_set_self hi] at h
      simp [hw] at h
    · rwa [List.getElem?_set_ne hj] at h
  simp only [need, Sys.setCall]
  cases s.pool with
  | none => simp only; omega
  | some p =>
    have := hd (idleTo a p)
    simp only
    omega

theorem need_release (a b : Addr) (c : Conn) (s : Sys) :
    need a (s.send (.release b c)) ≤ need a s + if b = a then 1 else 0 := by
  unfold Sys.send
  cases hp : s.pool with
  | none => simp only; exact Nat.le_add_right _ _
  | some p =>
    simp only [need, hp]
    rw [demand_snoc, demand_eq a s.calls s.queue]
    simp only [demand]
    split <;> omega

theorem need_blacklist (a b : Addr) (s : Sys) : need a (s.send (.blacklist b)) = need a s := by
  unfold Sys.send
  cases hp : s.pool with
  | none => rfl
  | some p =>
    simp only [need, hp]
    rw [demand_snoc, demand_eq a s.calls s.queue]
    rfl

section
variable [FloatText]

omit [FloatText] in
/-- A round of a call with its connection. -/
theorem need_settle {a : Addr} {s : Sys} {i : Nat} {y : PCall} (hy : s.calls[i]? = some y)
    (hk : y.addr = a → keeps a y = true) (c : Conn) (inner : CallInner) (o : CallOutcome) :
    need a (s.settle i y c inner o).2 ≤ need a s := by
  have hk' : keeps a y = true → y.addr = a := fun h => by
    simp only [keeps, Bool.and_eq_true, decide_eq_true_eq] at h
    exact h.1
  have stay : ∀ inner', need a (s.setCall i { y with st := .active c inner' }) ≤ need a s := by
    intro inner'
    have := need_set (a := a) (y' := { y with st := .active c inner' }) hy (by simp [waitsFor])
    by_cases h : y.addr = a
    · rw [if_pos (hk h)] at this
      split at this <;> omega
    · have h2 : ¬ keeps a { y with st := .active c inner' } = true := by simp [keeps, h]
      rw [if_neg (fun h' => h (hk' h')), if_neg h2] at this
      omega
  have leave : ∀ st, (∀ b, waitsFor b { y with st } = false) → (∀ b, keeps b { y with st } = false) →
      need a (s.setCall i { y with st }) + (if y.addr = a then 1 else 0) ≤ need a s := by
    intro st h1 h2
    have := need_set hy (h1 a)
    rw [h2 a] at this
    by_cases h : y.addr = a
    · rw [if_pos (hk h)] at this
      rw [if_pos h]
      simpa using this
    · rw [if_neg (fun h' => h (hk' h'))] at this
      rw [if_neg h]
      simpa using this
  cases o with
  | pending => exact stay _
  | next inner' => exact stay _
  | ready v body =>
    rw [Sys.settle]
    have h1 := leave (.done v body) (by simp [waitsFor]) (by simp [keeps])
    exact Nat.le_trans (need_release ..) h1
  | failed k =>
    rw [Sys.settle]
    exact Nat.le_trans (Nat.le_add_right _ _) (leave (.failed k) (by simp [waitsFor]) (by simp [keeps]))
  | panicked =>
    rw [Sys.settle]
    exact Nat.le_trans (Nat.le_add_right _ _) (leave .panicked (by simp [waitsFor]) (by simp [keeps]))

omit [FloatText] in
theorem need_end {a : Addr} {s : Sys} {i : Nat} {y : PCall} (hy : s.calls[i]? = some y) (st : PCallSt)
    (h1 : waitsFor a { y with st } = false) (h2 : keeps a { y with st } = false) :
    need a (s.setCall i { y with st }) ≤ need a s := by
  have := need_set hy h1
  rw [h2] at this
  simp only [Bool.false_eq_true, if_false] at this
  omega

theorem need_poll (a : Addr) (s : Sys) (i : Nat) (r : IoResult) : need a (s.poll i r).2 ≤ need a s := by
  rw [Sys.poll]
  split
  · exact Nat.le_refl _
  · rename_i y hy
    split
    · split
      · exact Nat.le_refl _
      · exact need_end hy _ (by simp [waitsFor]) (by simp [keeps])
    · rename_i inner c hst
      exact need_settle hy (fun h => by simp [keeps, h, hst]) c inner _
    · exact need_end hy _ (by simp [waitsFor]) (by simp [keeps])
    · rename_i inner b hst
      split
      · have := need_settle (a := a) (s := { s with next := s.next + 1 }) hy (fun h => by simp [keeps, h, hst]) s.next inner
          (callStep y.proc inner .connected)
        exact this
      · simp only
        rw [need_blacklist]
        exact need_end hy _ (by simp [waitsFor]) (by simp [keeps])
      · exact Nat.le_refl _
    · rename_i c inner hst
      exact need_settle hy (fun h => by simp [keeps, h, hst]) c inner _
    · exact Nat.le_refl _

omit [FloatText] in
theorem need_dropCall (a : Addr) (s : Sys) (i : Nat) : need a (s.dropCall i).2 ≤ need a s := by
  rw [Sys.dropCall]
  split
  · exact Nat.le_refl _
  · rename_i y hy
    split
    · exact need_end hy _ (by simp [waitsFor]) (by simp [keeps])
    · exact need_end hy _ (by simp [waitsFor]) (by simp [keeps])
    · exact need_end hy _ (by simp [waitsFor]) (by simp [keeps])
    · exact need_end hy _ (by simp [waitsFor]) (by simp [keeps])
    · exact Nat.le_refl _

omit [FloatText] in
theorem need_dropPool (a : Addr) (s : Sys) : need a s.dropPool.2 ≤ need a s := by
  rw [need, Sys.dropPool_pool, Sys.dropPool_calls, need]
  exact Nat.le_trans (Nat.le_of_eq rfl) (Nat.le_add_right _ _)

/-- The calls whose acquisitions are in the queue. -/
def askedIds (q : List Cmd) : List Nat := q.filterMap fun | .acquire _ i => some i | _ => none

omit [FloatText] in
theorem asking_sublist (a : Addr) (l : List PCall) (q : List Cmd) : (asking a l q).Sublist (askedIds q) := by
  induction q with
  | nil => exact .slnil
  | cons cmd q ih =>
    cases cmd with
    | acquire b i =>
      have : askedIds (.acquire b i :: q) = i :: askedIds q := rfl
      rw [this]
      by_cases h : aliveAt a l i = true
      · rw [asking_pos h]; exact ih.cons_cons i
      · rw [asking_neg h]; exact ih.cons i
    | release b c => exact ih
    | blacklist b => exact ih

omit [FloatText] in
theorem asking_alive (a : Addr) (l : List PCall) (q : List Cmd) : ∀ i ∈ asking a l q, aliveAt a l i = true := by
  intro i hi
  rw [asking, List.mem_filterMap] at hi
  obtain ⟨cmd, -, h⟩ := hi
  cases cmd with
  | acquire b j =>
    simp only at h
    split at h
    · cases h; assumption
    · cases h
  | release b c => cases h
  | blacklist b => cases h

omit [FloatText] in
theorem keeps_waits (a : Addr) (l : List PCall) :
    l.countP (keeps a) + l.countP (waitsFor a) ≤ l.countP (unfinished a) := by
  induction l with
  | nil => simp
  | cons y l ih =>
    rw [List.countP_cons, List.countP_cons, List.countP_cons]
    have : (if keeps a y = true then 1 else 0) + (if waitsFor a y = true then 1 else 0) ≤
        if unfinished a y = true then 1 else 0 := by
      obtain ⟨p, b, st⟩ := y
      by_cases h : b = a
      · cases st with
        | replied inner f => cases f <;> simp [keeps, waitsFor, unfinished, h]
        | _ => simp [keeps, waitsFor, unfinished, h]
      · simp [keeps, waitsFor, unfinished, h]
    omega

omit [FloatText] in
/-- A new call. -/
theorem need_call {log : List Effect} {s : Sys} (hi : Sys.Inv log s) (hn : (askedIds s.queue).Nodup) (a : Addr) (p : Proc)
    (b : Addr) (v : Val) (body : Bytes) (k : Nat) (hk : need a s ≤ k)
    (hk' : (s.call p b v body).calls.countP (unfinished a) ≤ k) : need a (s.call p b v body) ≤ k := by
  have hidx : ∀ i b, .acquire b i ∈ s.queue → i < s.calls.length := by
    intro i b hm
    have := hi.acquires b i hm
    simp only [Sys.addrOf, Option.map_eq_some_iff] at this
    obtain ⟨y, hy, -⟩ := this
    exact (List.getElem?_eq_some_iff.1 hy).1
  have hcalls : (s.call p b v body).calls = s.calls ++ [⟨p, b, .waiting (.new v body)⟩] := by
    unfold Sys.call Sys.send
    cases hp : s.pool <;> rfl
  have hkeeps : (s.call p b v body).calls.countP (keeps a) = s.calls.countP (keeps a) := by
    rw [hcalls, List.countP_append]; simp [keeps]
  have hsame : ∀ n, demand a (s.call p b v body).calls s.queue n ≤ demand a s.calls s.queue n := by
    refine demand_calls fun i c hm h => ?_
    rwa [aliveAt, hcalls, List.getElem?_append_left (hidx i c hm)] at h
  have hmax := keeps_waits a (s.call p b v body).calls
  rw [need, hkeeps]
  rw [need] at hk
  have hp' : (s.call p b v body).pool = s.pool := by
    unfold Sys.call Sys.send
    cases s.pool <;> simp
  rw [hp']
  cases hp : s.pool with
  | none =>
    rw [hp] at hk
    exact hk
  | some q =>
    have hq' : (s.call p b v body).queue = s.queue ++ [.acquire b s.calls.length] := by
      unfold Sys.call Sys.send
      simp [hp]
    rw [hp] at hk
    rw [hq']
    simp only at hk ⊢
    have hs := hsame (idleTo a q)
    generalize (s.call p b v body).calls = l at *
    rw [demand_snoc]
    rw [demand_eq a l] at hs
    simp only [demand]
    split
    · rename_i h
      have h1 : (asking a l s.queue ++ [s.calls.length]).length ≤ l.countP (waitsFor a) := by
        refine alive_count a l _ ?_ ?_
        · refine List.nodup_append.2 ⟨(asking_sublist a l s.queue).nodup hn, by simp, ?_⟩
          intro i hi j hj e
          rw [List.mem_singleton] at hj
          have hm := (asking_sublist a l s.queue).subset hi
          rw [askedIds, List.mem_filterMap] at hm
          obtain ⟨cmd, hm, hc⟩ := hm
          cases cmd with
          | acquire c j =>
            cases hc
            have := hidx _ _ hm
            omega
          | release c d => cases hc
          | blacklist c => cases hc
        · intro i hi
          rcases List.mem_append.1 hi with hi | hi
          · exact asking_alive a l _ i hi
          · rw [List.mem_singleton.1 hi]; exact h
      rw [List.length_append, List.length_singleton] at h1
      omega
    · omega

omit [FloatText] in
/-- The answer of the pool. -/
theorem need_reply (a b : Addr) (i : Nat) (f : Pooled) (s : Sys) :
    need a (s.reply i b f).2 ≤ need a s + if aliveAt a s.calls i = true ∧ f ≠ .failed then 1 else 0 := by
  unfold Sys.reply
  split
  · rename_i p b' inner hy
    have h := need_set (a := a) (y' := ⟨p, b', .replied inner f⟩) hy (by simp [waitsFor])
    have h1 : keeps a ⟨p, b', .waiting inner⟩ = false := by simp [keeps]
    rw [h1] at h
    refine Nat.le_trans (Nat.le_of_add_right_le h) ?_
    refine Nat.add_le_add_left ?_ _
    by_cases hb : b' = a
    · have hal : aliveAt a s.calls i = true := by rw [aliveAt, hy]; simp [waitsFor, hb]
      cases f <;> simp [keeps, hal, hb]
    · simp [keeps, hb]
  · exact Nat.le_add_right _ _

omit [FloatText] in
theorem takeIdle_none_own {a : Addr} {l : List (Addr × Conn)} (h : ∀ e ∈ l, SameHost e.1 a → e.1 = a)
    (ht : takeIdle a l = none) : l.countP (fun e => decide (e.1 = a)) = 0 := by
  induction l with
  | nil => rfl
  | cons e l ih =>
    obtain ⟨b, c⟩ := e
    rw [takeIdle] at ht
    by_cases hb : SameHost b a
    · have := h (b, c) List.mem_cons_self hb
      simp only at this
      rw [if_pos hb, if_pos this] at ht
      cases ht
    · rw [if_neg hb] at ht
      have hne : ¬ b = a := fun e => hb (e ▸ ⟨rfl, rfl⟩)
      rw [List.countP_cons]
      simp only [hne, decide_false, Bool.false_eq_true, if_false, Nat.add_zero]
      refine ih (fun e he => h e (List.mem_cons_of_mem _ he)) ?_
      cases hl : takeIdle a l with
      | none => rfl
      | some x => rw [hl] at ht; cases ht

omit [FloatText] in
theorem need_handle {log : List Effect} {s : Sys} (hi : Sys.Inv log s) (a : Addr)
    (hown : ∀ y ∈ s.calls, SameHost y.addr a → y.addr = a) (now : Time) :
    need a (s.handle now).2 ≤ need a s := by
  cases hp : s.pool with
  | none =>
    have : s.handle now = ([], s) := by unfold Sys.handle; rw [hp]
    rw [this]
    exact Nat.le_refl _
  | some p =>
  cases hq : s.queue with
  | nil =>
    have : s.handle now = ([], s) := by unfold Sys.handle; rw [hp, hq]
    rw [this]
    exact Nat.le_refl _
  | cons cmd q =>
  have hl := hi.pool
  rw [hp] at hl
  obtain ⟨size, ip, hl, hpl⟩ := hl
  unfold Sys.handle
  simp only [hp, hq]
  cases hs : p.step (Cmd.event now cmd) with
  | err e => exact need_dropPool a s
  | panic => exact need_dropPool a s
  | ok x =>
  obtain ⟨o, p'⟩ := x
  obtain ⟨p'', e1, e2, -⟩ := step_like' hl _ (room_of_step hs)
  rw [hs] at e1
  obtain ⟨e3, rfl⟩ := Prod.mk.inj (Res.ok.inj e1)
  have hb : need a s = s.calls.countP (keeps a) + demand a s.calls (cmd :: q) (idleTo a p) := by
    rw [need, hp, hq]
  have ha : ∀ s' : Sys, s'.calls = s.calls → s'.pool = some p' → s'.queue = q →
      need a s' = s.calls.countP (keeps a) + demand a s.calls q (idleTo a p') := by
    intro s' h1 h2 h3
    rw [need, h1, h2, h3]
  rw [idleTo_like hl] at hb
  rw [idleTo_like e2] at ha
  rw [hb]
  have hidle : ∀ e ∈ ip.idle, SameHost e.1 a → e.1 = a := by
    intro e he hsame
    obtain ⟨b, c⟩ := e
    obtain ⟨j, hj⟩ := hpl.pooledPeer b c (List.mem_append_left _ he)
    have := hpl.openedPeer j b c hj
    simp only [Sys.addrOf, Option.map_eq_some_iff] at this
    obtain ⟨y, hy, rfl⟩ := this
    exact hown y (List.mem_of_getElem? hy) hsame
  cases cmd with
  | acquire b i =>
    have hab := hi.acquires b i (by rw [hq]; exact List.mem_cons_self)
    have hal : aliveAt a s.calls i = true → b = a := by
      intro h
      simp only [Sys.addrOf, Option.map_eq_some_iff] at hab
      obtain ⟨y, hy, rfl⟩ := hab
      rw [aliveAt, hy] at h
      simp only [Option.map_some, Option.getD_some, waitsFor, Bool.and_eq_true, decide_eq_true_eq] at h
      exact h.1
    rw [demand]
    simp only [Cmd.event, IdlePool.step] at e3 ha
    have hfinal : ∀ f n',
        (∀ s' : Sys, s'.calls = s.calls → s'.pool = some p' → s'.queue = q →
          need a s' = s.calls.countP (keeps a) + demand a s.calls q n') →
        n' ≤ ip.idle.countP (fun e => decide (e.1 = a)) →
        (b = a → f ≠ .failed → n' ≤ ip.idle.countP (fun e => decide (e.1 = a)) - 1) →
        need a (Sys.reply i b f { s with pool := some p', queue := q }).2 ≤
        s.calls.countP (keeps a) +
          (if aliveAt a s.calls i = true then
            1 + demand a s.calls q (ip.idle.countP (fun e => decide (e.1 = a)) - 1)
          else demand a s.calls q (ip.idle.countP (fun e => decide (e.1 = a)))) := by
      intro f n' hs' hn1 hn2
      refine Nat.le_trans (need_reply a b i f _) ?_
      have h2 := hs' { s with pool := some p', queue := q } rfl rfl rfl
      rw [h2, Nat.add_assoc]
      refine Nat.add_le_add_left ?_ _
      have h0 := demand_le a s.calls q hn1
      by_cases h : aliveAt a s.calls i = true
      · rw [if_pos h]
        by_cases hf : f = .failed
        · rw [if_neg (fun h' => h'.2 hf)]
          exact Nat.le_trans h0 (demand_give_up ..)
        · rw [if_pos ⟨h, hf⟩]
          have := demand_le a s.calls q (hn2 (hal h) hf)
          omega
      · rw [if_neg h, if_neg (fun h' => h h'.1)]
        exact h0
    split at e3
    · rename_i hsus
      rw [if_pos hsus] at ha
      subst e3
      exact hfinal .failed _ ha (Nat.le_refl _) (fun _ h => absurd rfl h)
    · rename_i hsus
      rw [if_neg hsus] at ha
      cases ht : takeIdle b ip.idle with
      | none =>
        simp only [ht] at e3 ha
        subst e3
        refine hfinal _ _ ha (Nat.le_refl _) fun hba _ => ?_
        subst hba
        rw [takeIdle_none_own hidle ht]
        exact Nat.zero_le _
      | some x =>
        obtain ⟨c, l'⟩ := x
        simp only [ht] at e3 ha
        have hc := (takeIdle_perm ht).countP_eq fun e => decide (e.1 = a)
        rw [List.countP_cons] at hc
        subst e3
        refine hfinal _ _ ha (by omega) fun hba _ => ?_
        simp only [hba, decide_true, if_true] at hc
        omega
  | release b c =>
    simp only [Cmd.event, IdlePool.step] at e3 ha
    subst e3
    simp only
    have h2 := ha { s with pool := some p', queue := q } rfl rfl rfl
    rw [h2, demand]
    have h1 := List.Sublist.countP_le (p := fun e : Addr × Conn => decide (e.1 = a))
      (List.drop_sublist ((ip.idle ++ [(b, c)]).length - size) (ip.idle ++ [(b, c)]))
    rw [List.countP_append, List.countP_singleton] at h1
    refine Nat.add_le_add_left ?_ _
    split
    · rename_i hba
      refine demand_le a s.calls q (Nat.le_trans h1 ?_)
      simp [hba]
    · rename_i hba
      refine demand_le a s.calls q (Nat.le_trans h1 ?_)
      simp [hba]
  | blacklist b =>
    simp only
    have h2 := ha { s with pool := some p', queue := q } rfl rfl rfl
    rw [h2, demand]
    exact Nat.le_refl _

/-- Calls keep their addresses and nothing is asked. -/
def Meek (s s' : Sys) : Prop :=
  (∀ y ∈ s'.calls, ∃ z ∈ s.calls, y.addr = z.addr) ∧ (askedIds s'.queue).Sublist (askedIds s.queue)

omit [FloatText] in
theorem tame_refl (s : Sys) : Meek s s := ⟨fun y h => ⟨y, h, rfl⟩, List.Sublist.refl _⟩

omit [FloatText] in
theorem tame_set {s : Sys} {i : Nat} {y : PCall} (hy : s.calls[i]? = some y) (st : PCallSt) :
    Meek s (s.setCall i { y with st }) := by
  refine ⟨fun z hz => ?_, List.Sublist.refl _⟩
  rcases List.mem_or_eq_of_mem_set hz with h | h
  · exact ⟨z, h, rfl⟩
  · exact ⟨y, List.mem_of_getElem? hy, by rw [h]⟩

omit [FloatText] in
theorem tame_send {s s' : Sys} (h : Meek s s') (cmd : Cmd) (hc : ∀ b i, cmd ≠ .acquire b i) :
    Meek s (s'.send cmd) := by
  unfold Sys.send
  cases s'.pool with
  | none => exact h
  | some p =>
    refine ⟨h.1, ?_⟩
    have : askedIds (s'.queue ++ [cmd]) = askedIds s'.queue := by
      cases cmd with
      | acquire b i => exact absurd rfl (hc b i)
      | release b c => simp [askedIds]
      | blacklist b => simp [askedIds]
    simp only [this]
    exact h.2

omit [FloatText] in
theorem tame_settle {s : Sys} {i : Nat} {y : PCall} (hy : s.calls[i]? = some y) (c : Conn) (inner : CallInner)
    (o : CallOutcome) : Meek s (s.settle i y c inner o).2 := by
  cases o with
  | ready v body => exact tame_send (tame_set hy _) _ (fun _ _ => nofun)
  | _ => exact tame_set hy _

omit [FloatText] in
theorem tame_dropPool (s : Sys) : Meek s s.dropPool.2 := by
  unfold Sys.dropPool
  cases s.pool with
  | none => exact tame_refl s
  | some p => exact ⟨fun y h => ⟨y, h, rfl⟩, List.nil_sublist _⟩

theorem tame_poll (s : Sys) (i : Nat) (r : IoResult) : Meek s (s.poll i r).2 := by
  rw [Sys.poll]
  split
  · exact tame_refl s
  · rename_i y hy
    split
    · split
      · exact tame_refl s
      · exact tame_set hy _
    · exact tame_settle hy ..
    · exact tame_set hy _
    · split
      · exact tame_settle (s := { s with next := s.next + 1 }) hy ..
      · exact tame_send (tame_set hy _) _ (fun _ _ => nofun)
      · exact tame_refl s
    · exact tame_settle hy ..
    · exact tame_refl s

omit [FloatText] in
theorem tame_dropCall (s : Sys) (i : Nat) : Meek s (s.dropCall i).2 := by
  rw [Sys.dropCall]
  split
  · exact tame_refl s
  · rename_i y hy
    split
    · exact tame_set hy _
    · exact tame_set hy _
    · exact tame_set hy _
    · exact tame_set hy _
    · exact tame_refl s

omit [FloatText] in
theorem tame_handle (s : Sys) (now : Time) : Meek s (s.handle now).2 := by
  cases hp : s.pool with
  | none =>
    have : s.handle now = ([], s) := by unfold Sys.handle; rw [hp]
    rw [this]
    exact tame_refl s
  | some p =>
  cases hq : s.queue with
  | nil =>
    have : s.handle now = ([], s) := by unfold Sys.handle; rw [hp, hq]
    rw [this]
    exact tame_refl s
  | cons cmd q =>
  have hsub : (askedIds q).Sublist (askedIds s.queue) := by
    rw [hq]
    exact (List.sublist_cons_self cmd q).filterMap _
  have same : ∀ p', Meek s { s with pool := some p', queue := q } := fun p' =>
    ⟨fun y h => ⟨y, h, rfl⟩, hsub⟩
  unfold Sys.handle
  simp only [hp, hq]
  cases hs : p.step (Cmd.event now cmd) with
  | err e => exact tame_dropPool s
  | panic => exact tame_dropPool s
  | ok x =>
  obtain ⟨o, p'⟩ := x
  simp only
  split
  · unfold Sys.reply
    split
    · rename_i y hy
      have := tame_set (s := { s with pool := some p', queue := q }) hy (.replied y ‹_›)
      exact ⟨this.1, this.2.trans hsub⟩
    · exact same p'
  · exact same p'
  · exact same p'
  · exact same p'

/-- At most `k` connections to `a` are needed. -/
structure FitsIn (a : Addr) (k : Nat) (s : Sys) : Prop where
  bound : need a s ≤ k
  asked : (askedIds s.queue).Nodup
  own : ∀ y ∈ s.calls, SameHost y.addr a → y.addr = a

omit [FloatText] in
theorem fits_tame {a : Addr} {k : Nat} {s s' : Sys} (h : FitsIn a k s) (ht : Meek s s') (hn : need a s' ≤ need a s) :
    FitsIn a k s' :=
  ⟨Nat.le_trans hn h.bound, ht.2.nodup h.asked, fun y hy => by
    obtain ⟨z, hz, e⟩ := ht.1 y hy
    rw [e]
    exact h.own z hz⟩

theorem fits_step {a : Addr} {k : Nat} {log : List Effect} {s : Sys} (hi : Sys.Inv log s) (h : FitsIn a k s) (e : SysEvent)
    (ho : OneScope a [e]) (hk : (s.step e).2.calls.countP (unfinished a) ≤ k) : FitsIn a k (s.step e).2 := by
  cases e with
  | call p b v body =>
    refine ⟨need_call hi h.asked a p b v body k h.bound hk, ?_, ?_⟩
    · show (askedIds (s.call p b v body).queue).Nodup
      unfold Sys.call Sys.send
      cases s.pool with
      | none => exact h.asked
      | some p' =>
        have : askedIds (s.queue ++ [.acquire b s.calls.length]) = askedIds s.queue ++ [s.calls.length] := by
          simp [askedIds]
        simp only [this]
        refine List.nodup_append.2 ⟨h.asked, by simp, ?_⟩
        intro i hm j hj e
        rw [List.mem_singleton] at hj
        rw [askedIds, List.mem_filterMap] at hm
        obtain ⟨cmd, hm, hc⟩ := hm
        cases cmd with
        | acquire c j =>
          cases hc
          have := hi.acquires c _ hm
          simp only [Sys.addrOf, Option.map_eq_some_iff] at this
          obtain ⟨y, hy, -⟩ := this
          have := (List.getElem?_eq_some_iff.1 hy).1
          omega
        | release c d => cases hc
        | blacklist c => cases hc
    · show ∀ y ∈ (s.call p b v body).calls, _
      rw [Sys.call, Sys.send_calls]
      intro y hy
      rcases List.mem_append.1 hy with hy | hy
      · exact h.own y hy
      · rw [List.mem_singleton.1 hy]
        exact ho p b v body List.mem_cons_self
  | handle now => exact fits_tame h (tame_handle s now) (need_handle hi a h.own now)
  | setSuspended d =>
    refine fits_tame h ⟨fun y h => ⟨y, h, rfl⟩, List.Sublist.refl _⟩ (Nat.le_of_eq ?_)
    show need a { s with pool := s.pool.map (·.setSuspended d) } = _
    rw [need, need]
    cases s.pool <;> rfl
  | dropPool => exact fits_tame h (tame_dropPool s) (need_dropPool a s)
  | poll i r => exact fits_tame h (tame_poll s i r) (need_poll a s i r)
  | dropCall i => exact fits_tame h (tame_dropCall s i) (need_dropCall a s i)

theorem fits_run (k size : Nat) (a : Addr) (evs : List SysEvent) (ho : OneScope a evs) (hk : Peak k size a evs) :
    FitsIn a k (Sys.run evs (.new size)).2 := by
  induction evs using List.reverseRecOn with
  | nil => exact ⟨Nat.zero_le _, List.nodup_nil, by simp [Sys.run, Sys.new]⟩
  | append_singleton evs e ih =>
    have h := ih (fun p b v body hm => ho p b v body (List.mem_append_left _ hm))
      (fun l hl => hk l (hl.trans (List.prefix_append ..)))
    have h1 := hk (evs ++ [e]) (List.prefix_refl _)
    rw [sys_run_append] at h1 ⊢
    exact fits_step (reach_inv size evs) h e
      (fun p b v body hm => ho p b v body (List.mem_append_right _ hm)) h1

omit [FloatText] in
theorem keeps_conns (a : Addr) (l : List PCall) :
    (l.filterMap fun y => if y.addr = a then callConn y else none).length ≤ l.countP (keeps a) := by
  induction l with
  | nil => simp
  | cons y l ih =>
    rw [List.filterMap_cons, List.countP_cons]
    by_cases h : y.addr = a
    · rw [if_pos h]
      cases hc : callConn y with
      | none => simp only; omega
      | some c =>
        have : keeps a y = true := by
          unfold callConn at hc
          unfold keeps
          split at hc <;> simp_all
        simp only [List.length_cons, this, if_true]
        omega
    · rw [if_neg h]
      simp only
      omega

/-- **C137.** As long as at most `k` calls to an address are unfinished at a time, at most `k` connections to it are
open: idle ones, those of calls, and those on the way back to the pool. This is so for every size of the
pool, and with calls to other addresses, calls that fail, and calls that are dropped. -/
theorem C137_peak (k size : Nat) (a : Addr) (evs : List SysEvent) (ho : OneScope a evs) (hk : Peak k size a evs)
    (cs : List Conn) (hcs : cs.Nodup)
    (hopen : ∀ c ∈ cs, (∃ i, .opened i a c ∈ (Sys.run evs (.new size)).1) ∧
      .closed c ∉ (Sys.run evs (.new size)).1) : cs.length ≤ k := by
  refine Nat.le_trans ?_ (fits_run k size a evs ho hk).bound
  have hone := C46_one_place size evs
  have hpeer : ∀ c ∈ cs, ∀ b, OpenedTo (Sys.run evs (.new size)).1 b c → b = a := by
    intro c hc b ⟨j, hj⟩
    obtain ⟨⟨i, hi⟩, -⟩ := hopen c hc
    exact (C47_one_peer size evs j i b a c hj hi).2
  have hin : ∀ c ∈ cs, c ∈ places (Sys.run evs (.new size)).2 := by
    intro c hc
    obtain ⟨⟨i, hi⟩, h⟩ := hopen c hc
    exact (hone.2 c).2 ⟨⟨i, a, hi⟩, h⟩
  have hinv := reach_inv size evs
  generalize (Sys.run evs (.new size)).2 = s at *
  generalize (Sys.run evs (.new size)).1 = log at *
  have hcalls : ∀ (xs : List (Addr × Conn)), Places log s.hold xs s.next s.addrOf → ∀ c ∈ cs,
      c ∈ s.calls.filterMap callConn →
      c ∈ s.calls.filterMap fun y => if y.addr = a then callConn y else none := by
    intro xs hpl c hc hm
    obtain ⟨y, hy, hcc⟩ := List.mem_filterMap.1 hm
    obtain ⟨i, hi⟩ := List.mem_iff_getElem?.1 hy
    have hh : s.hold i = some c := by
      rw [Sys.hold, hi, Option.bind_some]
      unfold callConn at hcc
      unfold holdOf
      exact hcc
    obtain ⟨b, hb, hob⟩ := hpl.heldPeer i c hh
    have hba := hpeer c hc b hob
    rw [Sys.addrOf, hi] at hb
    cases hb
    exact List.mem_filterMap.2 ⟨y, hy, by rw [if_pos hba]; exact hcc⟩
  have hlen := keeps_conns a s.calls
  have hp := hinv.pool
  rw [need]
  cases hpool : s.pool with
  | none =>
    rw [hpool] at hp
    refine Nat.le_trans (hcs.subperm fun c hc => ?_).length_le hlen
    have := hin c hc
    rw [places, hpool, hp.1] at this
    exact hcalls _ hp.2 c hc (by simpa [idleConns, queuedConns] using this)
  | some p =>
    rw [hpool] at hp
    obtain ⟨size', ip, hl, hpl⟩ := hp
    have hsub : cs.length ≤ ((s.calls.filterMap fun y => if y.addr = a then callConn y else none) ++
        ((ip.idle ++ queued s.queue).filter fun e => decide (e.1 = a)).map Prod.snd).length := by
      refine (hcs.subperm fun c hc => ?_).length_le
      have hm := hin c hc
      rw [places, List.mem_append] at hm
      rcases hm with hm | hm
      · refine List.mem_append_right _ ?_
        have : c ∈ (ip.idle ++ queued s.queue).map Prod.snd := by
          obtain ⟨xs, h1, h2⟩ := pool_idle hl
          rw [hpool, idleConns, ← h1, queued_conns] at hm
          rw [List.map_append, List.mem_append]
          rcases List.mem_append.1 hm with hm | hm
          · exact .inl ((h2.map Prod.snd).mem_iff.2 hm)
          · exact .inr hm
        obtain ⟨⟨b, c'⟩, he, rfl⟩ := List.mem_map.1 this
        have := hpeer _ hc b (hpl.pooledPeer b c' he)
        exact List.mem_map.2 ⟨(b, c'), List.mem_filter.2 ⟨he, by simpa using this⟩, rfl⟩
      · exact List.mem_append_left _ (hcalls _ hpl c hc hm)
    have hthere := demand_there a s.calls s.queue (idleTo a p)
    rw [idleTo_like hl, List.countP_eq_length_filter, List.countP_eq_length_filter] at hthere
    rw [List.length_append, List.length_map, List.filter_append, List.length_append] at hsub
    simp only
    rw [idleTo_like hl, List.countP_eq_length_filter (l := ip.idle)]
    omega

omit [FloatText] in
theorem opened_nodup (a : Addr) (log : List Effect) (h : ∀ c, life c log ≠ none) : (openedTo a log).Nodup := by
  induction log using List.reverseRecOn with
  | nil => exact List.nodup_nil
  | append_singleton l e ih =>
    have ih := ih fun c => life_prefix (h c)
    rw [openedTo, List.filterMap_append]
    refine List.nodup_append.2 ⟨ih, ?_, ?_⟩
    · rw [List.filterMap_cons]
      split <;> simp
    · intro c hc d hd hcd
      subst hcd
      obtain ⟨e', he', hd'⟩ := List.mem_filterMap.1 hd
      rw [List.mem_singleton] at he'
      subst he'
      obtain ⟨e₀, he₀, hc'⟩ := List.mem_filterMap.1 hc
      clear hd hc
      cases e' with
      | opened j b d =>
        simp only at hd'
        split at hd'
        · cases hd'
          cases e₀ with
          | opened i b' d =>
            simp only at hc'
            split at hc'
            · cases hc'
              have h1 := h c
              rw [life_snoc] at h1
              by_cases h2 : life c l = some .unborn
              · have hne : life c l ≠ none := by rw [h2]; simp
                exact ((opened_of_after c _ _ hne).1 h2).2 i b' he₀
              · rw [Place.after, if_pos rfl, if_neg h2] at h1
                exact h1 rfl
            · cases hc'
          | _ => cases hc'
        · cases hd'
      | _ => cases hd'

/-- **C137.** So the number of connections that are ever opened to the address is at most `k` more than the number of
those that were closed: a new one is opened only to replace one, after the first `k`. -/
theorem C137_total (k size : Nat) (a : Addr) (evs : List SysEvent) (ho : OneScope a evs) (hk : Peak k size a evs) :
    (openedTo a (Sys.run evs (.new size)).1).length ≤ k + (closedTo a (Sys.run evs (.new size)).1).length := by
  have hn := opened_nodup a _ (C46_lives size evs)
  have hmem : ∀ c, c ∈ openedTo a (Sys.run evs (.new size)).1 → ∃ i, .opened i a c ∈ (Sys.run evs (.new size)).1 := by
    intro c hc
    obtain ⟨e, he, h⟩ := List.mem_filterMap.1 hc
    cases e with
    | opened i b d =>
      simp only at h
      split at h
      · rename_i hb
        cases h
        exact ⟨i, hb ▸ he⟩
      · cases h
    | _ => cases h
  have h1 := C137_peak k size a evs ho hk
    ((openedTo a (Sys.run evs (.new size)).1).filter fun c => decide (.closed c ∉ (Sys.run evs (.new size)).1))
    (hn.filter _) (fun c hc => by
      obtain ⟨h2, h3⟩ := List.mem_filter.1 hc
      exact ⟨hmem c h2, of_decide_eq_true h3⟩)
  have h2 : ((openedTo a (Sys.run evs (.new size)).1).filter
      fun c => !decide (.closed c ∉ (Sys.run evs (.new size)).1)).length ≤
      (closedTo a (Sys.run evs (.new size)).1).length := by
    refine (List.Nodup.subperm (hn.filter _) fun c hc => ?_).length_le
    obtain ⟨h2, h3⟩ := List.mem_filter.1 hc
    have h4 : .closed c ∈ (Sys.run evs (.new size)).1 := by simpa using h3
    exact List.mem_filterMap.2 ⟨.closed c, h4, by simp [h2]⟩
  have h3 := List.length_eq_length_filter_add (l := openedTo a (Sys.run evs (.new size)).1)
    fun c => decide (.closed c ∉ (Sys.run evs (.new size)).1)
  omega

end

namespace PeakExamples
section
variable [FloatText]

/-- `Peak`, event by event. -/
def upTo (k : Nat) (a : Addr) : List SysEvent → Sys → Prop
  | [], s => s.calls.countP (unfinished a) ≤ k
  | e :: evs, s => s.calls.countP (unfinished a) ≤ k ∧ upTo k a evs (s.step e).2

theorem upTo_prefix {k : Nat} {a : Addr} {evs : List SysEvent} {s : Sys} (h : upTo k a evs s) (l : List SysEvent)
    (hl : l <+: evs) : (Sys.run l s).2.calls.countP (unfinished a) ≤ k := by
  induction evs generalizing l s with
  | nil => rw [List.prefix_nil.1 hl]; exact h
  | cons e evs ih =>
    cases l with
    | nil => exact h.1
    | cons e' l =>
      obtain ⟨rfl, hl'⟩ := List.cons_prefix_cons.1 hl
      exact ih h.2 l hl'

theorem peak_of {k size : Nat} {a : Addr} {evs : List SysEvent} (h : upTo k a evs (.new size)) : Peak k size a evs :=
  fun l hl => upTo_prefix h l hl

end

/-- One call after the other, so one connection: `C137_peak` with `k` = 1. -/
example : letI := toyFloat
    ∀ cs : List Conn, cs.Nodup → (∀ c ∈ cs, (∃ i, .opened i exA c ∈ (Sys.run (exEvents.take 12) (.new 3)).1) ∧
      .closed c ∉ (Sys.run (exEvents.take 12) (.new 3)).1) → cs.length ≤ 1 := by
  let := toyFloat
  obtain ⟨r, hr⟩ := exCall_sent [1]
  have hd : deResponse exProc.resTy 404 [] = .ok (.unitVariant "NotFound".toList) := rfl
  have hm : exProc.method ≠ .head := by decide
  refine C137_peak 1 3 exA (exEvents.take 12) ?_ (peak_of ?_)
  · intro p b v body h _
    simp only [exEvents, List.take, List.mem_cons, SysEvent.call.injEq, reduceCtorEq, List.not_mem_nil, false_or, or_false]
      at h
    rcases h with h | h <;> exact h.2.1
  · simp [exEvents, upTo, unfinished, Sys.step, Sys.call, Sys.send, Sys.new, Sys.poll, Sys.handle,
      Cmd.event, Pool.step, Pool.handleAcquire, Pool.acquire, Pool.withSize, BTreeMap.firstFrom,
      Sys.reply, Sys.setCall, CallInner.new, hr, Sys.settle, callStep, callDecode, hd, hm, Pool.release,
      BTreeMap.insert, BTreeMap.remove, Pool.dropExceeded, ConnId.lt, natLt, exA]

/-- `C137_total`: the second call makes no connection. -/
example : letI := toyFloat
    openedTo exA (Sys.run exEvents (.new 3)).1 = [0] ∧ closedTo exA (Sys.run exEvents (.new 3)).1 = [0] := by
  let := toyFloat
  obtain ⟨s, h, -⟩ := exRun
  rw [h]
  simp [exLog, openedTo, closedTo]

/-- A call to the host of `exA` with another scope, and two calls to `exA`, each after the one before. -/
def scopes : List SysEvent :=
  [.call exProc ⟨1, 80, 7⟩ exCallArgs [1], .handle 0, .poll 0 .connected, .poll 0 .written, .poll 0 (.head 404 []),
   .poll 0 (.body [7]), .handle 0,
   .call exProc exA exCallArgs [1], .handle 0, .poll 1 .connected, .poll 1 .written, .poll 1 (.head 404 []),
   .poll 1 (.body [7]), .handle 0,
   .call exProc exA exCallArgs [1], .handle 0, .poll 2 .connected]

/-- `OneScope` is needed: two connections to `exA` are open although calls to it are made one after the other. -/
example : letI := toyFloat
    Peak 1 3 exA scopes ∧ .opened 1 exA 1 ∈ (Sys.run scopes (.new 3)).1 ∧ .opened 2 exA 2 ∈ (Sys.run scopes (.new 3)).1 ∧
      .closed 1 ∉ (Sys.run scopes (.new 3)).1 ∧ .closed 2 ∉ (Sys.run scopes (.new 3)).1 := by
  let := toyFloat
  obtain ⟨r, hr⟩ := exCall_sent [1]
  have hd : deResponse exProc.resTy 404 [] = .ok (.unitVariant "NotFound".toList) := rfl
  have hm : exProc.method ≠ .head := by decide
  refine ⟨peak_of ?_, ?_⟩
  · simp [scopes, upTo, unfinished, Sys.step, Sys.call, Sys.send, Sys.new, Sys.poll, Sys.handle,
      Cmd.event, Pool.step, Pool.handleAcquire, Pool.acquire, Pool.withSize, BTreeMap.firstFrom,
      Sys.reply, Sys.setCall, CallInner.new, hr, Sys.settle, callStep, callDecode, hd, hm, Pool.release,
      BTreeMap.insert, Pool.dropExceeded, ConnId.lt, natLt, exA]
  · simp [scopes, Sys.run, Sys.step, Sys.call, Sys.send, Sys.new, Sys.poll, Sys.handle,
      Cmd.event, Pool.step, Pool.handleAcquire, Pool.acquire, Pool.withSize, BTreeMap.firstFrom,
      Sys.reply, Sys.setCall, CallInner.new, hr, Sys.settle, callStep, callDecode, hd, hm, Pool.release,
      BTreeMap.insert, Pool.dropExceeded, ConnId.lt, natLt, exA]

/-- The bound is reached: two calls at a time, two connections. -/
example : letI := toyFloat
    ∃ evs, Peak 2 3 exA evs ∧ OneScope exA evs ∧ .opened 0 exA 0 ∈ (Sys.run evs (.new 3)).1 ∧
      .opened 1 exA 1 ∈ (Sys.run evs (.new 3)).1 ∧
      .closed 0 ∉ (Sys.run evs (.new 3)).1 ∧ .closed 1 ∉ (Sys.run evs (.new 3)).1 := by
  let := toyFloat
  obtain ⟨r, hr⟩ := exCall_sent [1]
  refine ⟨[.call exProc exA exCallArgs [1], .call exProc exA exCallArgs [1], .handle 0, .handle 0, .poll 0 .connected,
    .poll 1 .connected], peak_of ?_, ?_, ?_⟩
  · simp [upTo, unfinished, Sys.step, Sys.call, Sys.send, Sys.new, Sys.poll, Sys.handle,
      Cmd.event, Pool.step, Pool.handleAcquire, Pool.acquire, Pool.withSize, BTreeMap.firstFrom,
      Sys.reply, Sys.setCall, CallInner.new, hr, Sys.settle, callStep, exA]
  · intro p b v body h _
    simp only [List.mem_cons, SysEvent.call.injEq, reduceCtorEq, List.not_mem_nil, or_false] at h
    rcases h with h | h <;> exact h.2.1
  · simp [Sys.run, Sys.step, Sys.call, Sys.send, Sys.new, Sys.poll, Sys.handle,
      Cmd.event, Pool.step, Pool.handleAcquire, Pool.acquire, Pool.withSize, BTreeMap.firstFrom,
      Sys.reply, Sys.setCall, CallInner.new, hr, Sys.settle, callStep, exA]

end PeakExamples

end Htrpc
