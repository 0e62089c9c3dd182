/-
C132: calls one after another, and servers that close connections.
-/
import Verif.Spec.Serial
import Verif.Props.Restart
import Mathlib.Data.List.Induction
import Mathlib.Algebra.Group.Nat.Even

namespace Htrpc
open Spec

/-- The call has completed. -/
def DoneIn (calls : List PCall) (j : Nat) : Prop := ∃ y v body, calls[j]? = some y ∧ y.st = .done v body

/-- What is idle when call `n` is made. -/
def Avail (a : Addr) (calls : List PCall) (log : List Effect) (n : Nat) (conns : BTreeMap ConnId Conn) : Prop :=
  ((∀ j, n = j + 1 → ¬ DoneIn calls j) ∧ conns = []) ∨
  ∃ j s c, n = j + 1 ∧ DoneIn calls j ∧ c ∈ got j log ∧ conns = [(⟨a, s⟩, c)]

/-- How far the last call is, and where its connection is. -/
inductive Turn (a : Addr) (calls : List PCall) (log : List Effect) (n : Nat) :
    PCallSt → List Cmd → BTreeMap ConnId Conn → Nat → Prop where
  | waiting {inner conns seq} : Avail a calls log n conns → seq ≤ n →
      Turn a calls log n (.waiting inner) [.acquire a n] conns seq
  | dropped {conns seq} : Avail a calls log n conns → seq ≤ n →
      Turn a calls log n .dropped [.acquire a n] conns seq
  | ready {inner c seq} : c ∈ got n log → seq ≤ n → Turn a calls log n (.replied inner (.ready c)) [] [] seq
  | connecting {inner seq} : (∀ j, n = j + 1 → ¬ DoneIn calls j) → seq ≤ n →
      Turn a calls log n (.replied inner (.connecting a)) [] [] seq
  | active {inner c seq} : c ∈ got n log → seq ≤ n → Turn a calls log n (.active c inner) [] [] seq
  | done {v b c seq} : c ∈ got n log → seq ≤ n → Turn a calls log n (.done v b) [.release a c] [] seq
  | idle {v b c s seq} : c ∈ got n log → seq ≤ n + 1 → Turn a calls log n (.done v b) [] [(⟨a, s⟩, c)] seq
  | over {st seq} : Finished st → (∀ v b, st ≠ .done v b) → (st ≠ .dropped → got n log ≠ []) → seq ≤ n →
      Turn a calls log n st [] [] seq

structure SerialInv (size : Nat) (a : Addr) (s : Sys) (log : List Effect) (p : Pool) : Prop where
  pool : s.pool = some p
  size : p.size = size
  unlisted : p.blacklist = []
  last : (s.calls = [] ∧ s.queue = [] ∧ p.connections = [] ∧ p.seq = 0) ∨
    ∃ n y, s.calls.length = n + 1 ∧ s.calls[n]? = some y ∧ y.addr = a ∧
      Turn a s.calls log n y.st s.queue p.connections p.seq
  before : ∀ i y, s.calls[i]? = some y → i + 1 < s.calls.length →
    Finished y.st ∧ (y.st ≠ .dropped → got i log ≠ [])
  opens : ∀ i b c, .opened i b c ∈ log → i < s.calls.length ∧ ∀ j, i = j + 1 → ¬ DoneIn s.calls j
  takes : ∀ i b c, .took i b c ∈ log → ∃ j, i = j + 1 ∧ DoneIn s.calls j ∧ c ∈ got j log

theorem got_mono {i : Nat} {c : Conn} {l : List Effect} (l' : List Effect) (h : c ∈ got i l) :
    c ∈ got i (l ++ l') := by
  rw [got_append]; exact List.mem_append_left _ h

theorem got_ne {i : Nat} {l : List Effect} (l' : List Effect) (h : got i l ≠ []) : got i (l ++ l') ≠ [] := by
  rw [got_append]; simp [h]

theorem doneIn_set {calls : List PCall} {n j : Nat} (x : PCall) (h : j ≠ n) :
    DoneIn (calls.set n x) j ↔ DoneIn calls j := by
  simp only [DoneIn, List.getElem?_set, if_neg (Ne.symm h)]

theorem doneIn_snoc {calls : List PCall} {j : Nat} (x : PCall) (h : j < calls.length) :
    DoneIn (calls ++ [x]) j ↔ DoneIn calls j := by
  simp only [DoneIn, List.getElem?_append_left h]

theorem avail_set {a : Addr} {calls : List PCall} {log : List Effect} {n : Nat} {conns : BTreeMap ConnId Conn}
    (h : Avail a calls log n conns) (x : PCall) : Avail a (calls.set n x) log n conns := by
  rcases h with ⟨h1, h2⟩ | ⟨j, s, c, h1, h2, h3, h4⟩
  · exact .inl ⟨fun j hj => by rw [doneIn_set x (by omega)]; exact h1 j hj, h2⟩
  · exact .inr ⟨j, s, c, h1, (doneIn_set x (by omega)).2 h2, h3, h4⟩

theorem avail_log {a : Addr} {calls : List PCall} {log : List Effect} {n : Nat} {conns : BTreeMap ConnId Conn}
    (h : Avail a calls log n conns) (l : List Effect) : Avail a calls (log ++ l) n conns := by
  rcases h with h | ⟨j, s, c, h1, h2, h3, h4⟩
  · exact .inl h
  · exact .inr ⟨j, s, c, h1, h2, got_mono l h3, h4⟩

/-- The last call changes its state. -/
theorem inv_set {size : Nat} {a : Addr} {s : Sys} {log : List Effect} {p : Pool}
    (h : SerialInv size a s log p) {n : Nat} {y : PCall} (hn : s.calls.length = n + 1)
    (hy : s.calls[n]? = some y) (ha : y.addr = a) (hnd : ∀ v b, y.st ≠ .done v b) (st : PCallSt)
    (q : List Cmd) (p' : Pool) (next : Nat) (l : List Effect) (hsz : p'.size = p.size)
    (hbl : p'.blacklist = p.blacklist)
    (ho : ∀ i b c, .opened i b c ∈ l → i = n ∧ ∀ j, n = j + 1 → ¬ DoneIn s.calls j)
    (ht : ∀ i b c, .took i b c ∈ l → ∃ j, i = j + 1 ∧ DoneIn s.calls j ∧ c ∈ got j log)
    (hT : Turn a (s.calls.set n { y with st }) (log ++ l) n st q p'.connections p'.seq) :
    SerialInv size a ⟨some p', q, s.calls.set n { y with st }, next⟩ (log ++ l) p' := by
  have hd : ∀ j, DoneIn s.calls j → DoneIn (s.calls.set n { y with st }) j := by
    intro j hj
    by_cases hjn : j = n
    · subst hjn
      obtain ⟨y', v, b, h1, h2⟩ := hj
      rw [hy] at h1; cases h1
      exact absurd h2 (hnd v b)
    · exact (doneIn_set _ hjn).2 hj
  refine ⟨rfl, hsz.trans h.size, hbl.trans h.unlisted, .inr ⟨n, { y with st }, ?_, ?_, ha, hT⟩, ?_, ?_, ?_⟩
  · simpa using hn
  · simp [hn]
  · intro i x hx hi
    simp only [List.length_set, hn] at hi
    simp only [List.getElem?_set, if_neg (show n ≠ i by omega)] at hx
    obtain ⟨h1, h2⟩ := h.before i x hx (by omega)
    exact ⟨h1, fun h3 => got_ne l (h2 h3)⟩
  · intro i b c hm
    simp only [List.length_set]
    rcases List.mem_append.1 hm with hm | hm
    · obtain ⟨h1, h2⟩ := h.opens i b c hm
      exact ⟨h1, fun j hj => by rw [doneIn_set _ (by omega)]; exact h2 j hj⟩
    · obtain ⟨rfl, h2⟩ := ho i b c hm
      exact ⟨by omega, fun j hj => by rw [doneIn_set _ (by omega)]; exact h2 j hj⟩
  · intro i b c hm
    rcases List.mem_append.1 hm with hm | hm
    · obtain ⟨j, h1, h2, h3⟩ := h.takes i b c hm
      exact ⟨j, h1, hd j h2, got_mono l h3⟩
    · obtain ⟨j, h1, h2, h3⟩ := ht i b c hm
      exact ⟨j, h1, hd j h2, got_mono l h3⟩

/-- The pool and its queue change. -/
theorem inv_pool {size : Nat} {a : Addr} {s : Sys} {log : List Effect} {p : Pool}
    (h : SerialInv size a s log p) {n : Nat} {y : PCall} (hn : s.calls.length = n + 1)
    (hy : s.calls[n]? = some y) (ha : y.addr = a) (q : List Cmd) (p' : Pool) (l : List Effect)
    (hsz : p'.size = p.size) (hbl : p'.blacklist = p.blacklist)
    (hl : (∀ i b c, .opened i b c ∉ l) ∧ ∀ i b c, .took i b c ∉ l)
    (hT : Turn a s.calls (log ++ l) n y.st q p'.connections p'.seq) :
    SerialInv size a ⟨some p', q, s.calls, s.next⟩ (log ++ l) p' := by
  refine ⟨rfl, hsz.trans h.size, hbl.trans h.unlisted, .inr ⟨n, y, hn, hy, ha, hT⟩, ?_, ?_, ?_⟩
  · intro i x hx hi
    obtain ⟨h1, h2⟩ := h.before i x hx hi
    exact ⟨h1, fun h3 => got_ne l (h2 h3)⟩
  · intro i b c hm
    rcases List.mem_append.1 hm with hm | hm
    · exact h.opens i b c hm
    · exact absurd hm (hl.1 i b c)
  · intro i b c hm
    rcases List.mem_append.1 hm with hm | hm
    · obtain ⟨j, h1, h2, h3⟩ := h.takes i b c hm
      exact ⟨j, h1, h2, got_mono l h3⟩
    · exact absurd hm (hl.2 i b c)

theorem acquire_none (p : Pool) (hb : p.blacklist = []) (hc : p.connections = []) (a : Addr) (now : Time) :
    p.step (.acquire a now) = .ok (.reply (.connecting a), p) := by
  simp [Pool.step, Pool.handleAcquire, hb, Pool.acquire, hc, BTreeMap.firstFrom]

theorem acquire_one (p : Pool) (hb : p.blacklist = []) (a : Addr) (s : Nat) (c : Conn)
    (hc : p.connections = [(⟨a, s⟩, c)]) (now : Time) :
    ∃ lru, p.step (.acquire a now) = .ok (.reply (.ready c), { p with lru, connections := [] }) := by
  simp [Pool.step, Pool.handleAcquire, hb, Pool.acquire, hc, BTreeMap.firstFrom, BTreeMap.remove, ConnId.lt]

theorem release_one (p : Pool) (hs : 1 ≤ p.size) (hc : p.connections = []) (hq : p.seq + 1 < 2 ^ 64) (a : Addr)
    (c : Conn) : ∃ lru, p.step (.release a c) = .ok (.closed [],
      { p with seq := p.seq + 1, lru, connections := [(⟨a, p.seq⟩, c)] }) := by
  have hs' : ¬ 1 > p.size := by omega
  simp only [Pool.step, Pool.release, if_pos hq, hc, BTreeMap.insert]
  unfold Pool.dropExceeded
  simp [hs']

section
variable [FloatText]

omit [FloatText] in
/-- The call on a connection goes on. -/
theorem inv_settle {size : Nat} {a : Addr} {s : Sys} {log : List Effect} {p : Pool}
    (h : SerialInv size a s log p) {n : Nat} {y : PCall} (hn : s.calls.length = n + 1)
    (hy : s.calls[n]? = some y) (ha : y.addr = a) (hnd : ∀ v b, y.st ≠ .done v b) (hq : s.queue = [])
    (hc : p.connections = []) (hs : p.seq ≤ n) (c : Conn) (inner : CallInner) (o : CallOutcome) (next : Nat)
    (l : List Effect) (ho : ∀ i b c, .opened i b c ∈ l → i = n ∧ ∀ j, n = j + 1 → ¬ DoneIn s.calls j)
    (ht : ∀ i b c, .took i b c ∉ l) (hg : c ∈ got n (log ++ l)) :
    SerialInv size a (Sys.settle n y c inner { s with next } o).2
      (log ++ (l ++ (Sys.settle n y c inner { s with next } o).1)) p := by
  have main : ∀ st q l', (∀ i b c, .opened i b c ∉ l') → (∀ i b c, .took i b c ∉ l') →
      Turn a (s.calls.set n { y with st }) (log ++ (l ++ l')) n st q p.connections p.seq →
      SerialInv size a ⟨some p, q, s.calls.set n { y with st }, next⟩ (log ++ (l ++ l')) p := by
    intro st q l' h1 h2 hT
    refine inv_set h hn hy ha hnd st q p next (l ++ l') rfl rfl ?_ ?_ hT
    · intro i b d hm
      rcases List.mem_append.1 hm with hm | hm
      · exact ho i b d hm
      · exact absurd hm (h1 i b d)
    · intro i b d hm
      rcases List.mem_append.1 hm with hm | hm
      · exact absurd hm (ht i b d)
      · exact absurd hm (h2 i b d)
  have hg' : ∀ l', c ∈ got n (log ++ (l ++ l')) := fun l' => by
    rw [← List.append_assoc]; exact got_mono l' hg
  have hne : ∀ l', got n (log ++ (l ++ l')) ≠ [] := fun l' => List.ne_nil_of_mem (hg' l')
  have hp := h.pool
  cases o with
  | pending =>
    have := main (.active c inner) [] [] (by simp) (by simp) (by rw [hc]; exact .active (hg' _) hs)
    simpa only [Sys.settle, Sys.setCall, hp, hq] using this
  | next inner' =>
    have := main (.active c inner') [] [] (by simp) (by simp) (by rw [hc]; exact .active (hg' _) hs)
    simpa only [Sys.settle, Sys.setCall, hp, hq] using this
  | ready v b =>
    have := main (.done v b) [.release a c] [.returned n a c] (by simp) (by simp)
      (by rw [hc]; exact .done (hg' _) hs)
    simpa only [Sys.settle, Sys.setCall, Sys.send, hp, hq, ha, List.nil_append] using this
  | failed k =>
    have := main (.failed k) [] [.closed c] (by simp) (by simp)
      (by rw [hc]; exact .over trivial (by simp) (fun _ => hne _) hs)
    simpa only [Sys.settle, Sys.setCall, hp, hq] using this
  | panicked =>
    have := main .panicked [] [.closed c] (by simp) (by simp)
      (by rw [hc]; exact .over trivial (by simp) (fun _ => hne _) hs)
    simpa only [Sys.settle, Sys.setCall, hp, hq] using this

omit [FloatText] in
theorem inv_nothing {size : Nat} {a : Addr} {s : Sys} {log : List Effect} {p : Pool}
    (h : SerialInv size a s log p) : SerialInv size a s (log ++ []) p := by
  rwa [List.append_nil]

theorem inv_poll {size : Nat} {a : Addr} {s : Sys} {log : List Effect} {p : Pool}
    (h : SerialInv size a s log p) (i : Nat) (r : IoResult)
    (hr : ∀ j b, .refused j b ∉ (s.poll i r).1) :
    SerialInv size a (s.poll i r).2 (log ++ (s.poll i r).1) p := by
  rcases h.last with ⟨h1, -⟩ | ⟨n, y, hn, hy, ha, hT⟩
  · have e : s.poll i r = ([], s) := by simp [Sys.poll, h1]
    rw [e]; exact inv_nothing h
  · by_cases hi : i = n
    · subst hi
      cases hst : y.st with
      | waiting inner =>
        have e : s.poll i r = ([], s) := by simp [Sys.poll, hy, hst, h.pool]
        rw [e]; exact inv_nothing h
      | done v b =>
        have e : s.poll i r = ([], s) := by simp [Sys.poll, hy, hst]
        rw [e]; exact inv_nothing h
      | failed k =>
        have e : s.poll i r = ([], s) := by simp [Sys.poll, hy, hst]
        rw [e]; exact inv_nothing h
      | panicked =>
        have e : s.poll i r = ([], s) := by simp [Sys.poll, hy, hst]
        rw [e]; exact inv_nothing h
      | dropped =>
        have e : s.poll i r = ([], s) := by simp [Sys.poll, hy, hst]
        rw [e]; exact inv_nothing h
      | active c inner =>
        rw [hst] at hT
        generalize hq : s.queue = q at hT
        generalize hc : p.connections = conns at hT
        generalize hs : p.seq = seq at hT
        cases hT with
        | active hg hs' =>
          have := inv_settle h hn hy ha (by simp [hst]) hq hc (hs ▸ hs') c inner
            (callStep y.proc inner r) s.next [.io i c] (by simp) (by simp) (got_mono _ hg)
          simpa [Sys.poll, hy, hst] using this
        | over h1 => exact absurd h1 (by simp [Finished])
      | replied inner f =>
        rw [hst] at hT
        generalize hq : s.queue = q at hT
        generalize hc : p.connections = conns at hT
        generalize hs : p.seq = seq at hT
        cases hT with
        | ready hg hs' =>
          rename_i c
          have := inv_settle h hn hy ha (by simp [hst]) hq hc (hs ▸ hs') c inner
            (callStep y.proc inner .connected) s.next [] (by simp) (by simp) (got_mono _ hg)
          simpa [Sys.poll, hy, hst] using this
        | connecting hj hs' =>
          cases r with
          | connected =>
            have := inv_settle h hn hy ha (by simp [hst]) hq hc (hs ▸ hs') s.next inner
              (callStep y.proc inner .connected) (s.next + 1) [.opened i a s.next] (by
                intro k b d hm
                simp only [List.mem_singleton, Effect.opened.injEq] at hm
                exact ⟨hm.1, hj⟩) (by simp) (by rw [got_append]; simp [got])
            simpa [Sys.poll, hy, hst] using this
          | failed =>
            exact absurd (by simp [Sys.poll, hy, hst]) (hr i a)
          | written | notReady | head _ _ | body _ =>
            have e : ∀ r', r' ≠ .connected → r' ≠ .failed → s.poll i r' = ([], s) := by
              intro r' h1 h2
              cases r' <;> simp_all [Sys.poll]
            rw [e _ (by simp) (by simp)]; exact inv_nothing h
        | over h1 => exact absurd h1 (by simp [Finished])
    · have e : s.poll i r = ([], s) := by
        cases hx : s.calls[i]? with
        | none => simp [Sys.poll, hx]
        | some x =>
          have hl : i < s.calls.length := (List.getElem?_eq_some_iff.1 hx).1
          have := (h.before i x hx (by omega)).1
          cases hst : x.st <;> rw [hst] at this <;> simp [Finished] at this <;> simp [Sys.poll, hx, hst]
      rw [e]; exact inv_nothing h

omit [FloatText] in
theorem inv_dropCall {size : Nat} {a : Addr} {s : Sys} {log : List Effect} {p : Pool}
    (h : SerialInv size a s log p) (i : Nat) :
    SerialInv size a (s.dropCall i).2 (log ++ (s.dropCall i).1) p := by
  rcases h.last with ⟨h1, -⟩ | ⟨n, y, hn, hy, ha, hT⟩
  · have e : s.dropCall i = ([], s) := by simp [Sys.dropCall, h1]
    rw [e]; exact inv_nothing h
  · by_cases hi : i = n
    · subst hi
      have hp := h.pool
      generalize hq : s.queue = q at hT
      generalize hc : p.connections = conns at hT
      generalize hs : p.seq = seq at hT
      generalize hst : y.st = st at hT
      have same : s.dropCall i = ([], s) → SerialInv size a (s.dropCall i).2 (log ++ (s.dropCall i).1) p := by
        intro e; rw [e]; exact inv_nothing h
      have main : ∀ q l, q = s.queue → (∀ i b c, .opened i b c ∉ l) → (∀ i b c, .took i b c ∉ l) →
          (∀ v b, y.st ≠ .done v b) → s.dropCall i = (l, s.setCall i { y with st := .dropped }) →
          Turn a (s.calls.set i { y with st := .dropped }) (log ++ l) i .dropped q p.connections p.seq →
          SerialInv size a (s.dropCall i).2 (log ++ (s.dropCall i).1) p := by
        intro q l hqq h1 h2 h3 e hT
        have := inv_set h hn hy ha h3 .dropped q p s.next l rfl rfl
          (fun j b c hm => absurd hm (h1 j b c)) (fun j b c hm => absurd hm (h2 j b c)) hT
        rw [e]
        simpa only [Sys.setCall, hp, hqq] using this
      cases hT with
      | waiting hav hsq =>
        refine main [.acquire a i] [] hq.symm (by simp) (by simp) (by simp [hst])
          (by simp [Sys.dropCall, hy, hst]) ?_
        rw [hc, hs]
        exact .dropped (avail_log (avail_set hav _) _) hsq
      | dropped => exact same (by simp [Sys.dropCall, hy, hst])
      | ready hg hsq =>
        rename_i c
        refine main [] [.closed c] hq.symm (by simp) (by simp) (by simp [hst])
          (by simp [Sys.dropCall, hy, hst]) ?_
        rw [hc, hs]
        exact .over trivial (by simp) (by simp) hsq
      | connecting hg hsq =>
        refine main [] [] hq.symm (by simp) (by simp) (by simp [hst])
          (by simp [Sys.dropCall, hy, hst]) ?_
        rw [hc, hs]
        exact .over trivial (by simp) (by simp) hsq
      | active hg hsq =>
        rename_i c
        refine main [] [.closed c] hq.symm (by simp) (by simp) (by simp [hst])
          (by simp [Sys.dropCall, hy, hst]) ?_
        rw [hc, hs]
        exact .over trivial (by simp) (by simp) hsq
      | done => exact same (by simp [Sys.dropCall, hy, hst])
      | idle => exact same (by simp [Sys.dropCall, hy, hst])
      | over hf =>
        exact same (by cases st <;> simp [Finished] at hf <;> simp [Sys.dropCall, hy, hst])
    · have e : s.dropCall i = ([], s) := by
        cases hx : s.calls[i]? with
        | none => simp [Sys.dropCall, hx]
        | some x =>
          have hl : i < s.calls.length := (List.getElem?_eq_some_iff.1 hx).1
          have := (h.before i x hx (by omega)).1
          cases hst : x.st <;> rw [hst] at this <;> simp [Finished] at this <;> simp [Sys.dropCall, hx, hst]
      rw [e]; exact inv_nothing h

omit [FloatText] in
theorem inv_handle {size : Nat} (hsize : 1 ≤ size) {a : Addr} {s : Sys} {log : List Effect} {p : Pool}
    (h : SerialInv size a s log p) (hcalls : s.calls.length < 2 ^ 64 - 1) (now : Time) :
    ∃ p', SerialInv size a (s.handle now).2 (log ++ (s.handle now).1) p' := by
  have hp := h.pool
  rcases h.last with ⟨-, h1, -⟩ | ⟨n, y, hn, hy, ha, hT⟩
  · have e : s.handle now = ([], s) := by simp [Sys.handle, hp, h1]
    rw [e]; exact ⟨p, inv_nothing h⟩
  · generalize hq : s.queue = q at hT
    generalize hc : p.connections = conns at hT
    generalize hs : p.seq = seq at hT
    generalize hst : y.st = st at hT
    have same : s.queue = [] → ∃ p', SerialInv size a (s.handle now).2 (log ++ (s.handle now).1) p' := by
      intro e
      have e : s.handle now = ([], s) := by simp [Sys.handle, hp, e]
      rw [e]; exact ⟨p, inv_nothing h⟩
    cases hT with
    | ready => exact same hq
    | connecting => exact same hq
    | active => exact same hq
    | idle => exact same hq
    | over => exact same hq
    | done hg hsq =>
      rename_i c
      obtain ⟨lru, hr⟩ := release_one p (by rw [h.size]; exact hsize) hc (by omega) a c
      refine ⟨{ p with seq := p.seq + 1, lru, connections := [(⟨a, p.seq⟩, c)] }, ?_⟩
      have e : s.handle now = ([], ⟨some { p with seq := p.seq + 1, lru, connections := [(⟨a, p.seq⟩, c)] }, [],
          s.calls, s.next⟩) := by
        simp [Sys.handle, hp, hq, Cmd.event, hr]
      rw [e]
      refine inv_pool h hn hy ha [] _ [] rfl rfl (by simp) ?_
      rw [hst]
      exact .idle (got_mono _ hg) (by simp only; omega)
    | waiting hav hsq =>
      rename_i inner
      rcases hav with ⟨h1, rfl⟩ | ⟨j, sq, c, h1, h2, h3, rfl⟩
      · refine ⟨p, ?_⟩
        have e : s.handle now = ([], ⟨some p, [], s.calls.set n { y with st := .replied inner (.connecting a) },
            s.next⟩) := by
          obtain ⟨yp, yb, ys⟩ := y
          cases hst
          simp [Sys.handle, hp, hq, Cmd.event, acquire_none p h.unlisted hc, Sys.reply, hy, Sys.setCall]
        rw [e]
        refine inv_set h hn hy ha (by simp [hst]) _ [] p s.next [] rfl rfl (by simp) (by simp) ?_
        rw [hc, hs]
        exact .connecting (fun j hj => by rw [doneIn_set _ (by omega)]; exact h1 j hj) hsq
      · obtain ⟨lru, hr⟩ := acquire_one p h.unlisted a sq c hc now
        refine ⟨{ p with lru, connections := [] }, ?_⟩
        have e : s.handle now = ([.took n a c], ⟨some { p with lru, connections := [] }, [],
            s.calls.set n { y with st := .replied inner (.ready c) }, s.next⟩) := by
          obtain ⟨yp, yb, ys⟩ := y
          cases hst
          simp [Sys.handle, hp, hq, Cmd.event, hr, Sys.reply, hy, Sys.setCall]
        rw [e]
        refine inv_set h hn hy ha (by simp [hst]) _ [] _ s.next _ rfl rfl (by simp) (by
          intro i b d hm
          simp only [List.mem_singleton, Effect.took.injEq] at hm
          obtain ⟨rfl, rfl, rfl⟩ := hm
          exact ⟨j, h1, h2, h3⟩) ?_
        exact .ready (by rw [got_append]; simp [got]) (by simp only; omega)
    | dropped hav hsq =>
      rcases hav with ⟨h1, rfl⟩ | ⟨j, sq, c, h1, h2, h3, rfl⟩
      · refine ⟨p, ?_⟩
        have e : s.handle now = ([], ⟨some p, [], s.calls, s.next⟩) := by
          obtain ⟨yp, yb, ys⟩ := y
          cases hst
          simp [Sys.handle, hp, hq, Cmd.event, acquire_none p h.unlisted hc, Sys.reply, hy]
        rw [e]
        refine inv_pool h hn hy ha [] p [] rfl rfl (by simp) ?_
        rw [hc, hs, hst]
        exact .over trivial (by simp) (by simp) hsq
      · obtain ⟨lru, hr⟩ := acquire_one p h.unlisted a sq c hc now
        refine ⟨{ p with lru, connections := [] }, ?_⟩
        have e : s.handle now = ([.closed c], ⟨some { p with lru, connections := [] }, [],
            s.calls, s.next⟩) := by
          obtain ⟨yp, yb, ys⟩ := y
          cases hst
          simp [Sys.handle, hp, hq, Cmd.event, hr, Sys.reply, hy]
        rw [e]
        refine inv_pool h hn hy ha [] _ [.closed c] rfl rfl (by simp) ?_
        rw [hst]
        exact .over trivial (by simp) (by simp) (by simp only; omega)

omit [FloatText] in
theorem inv_call {size : Nat} {a : Addr} {s : Sys} {log : List Effect} {p : Pool}
    (h : SerialInv size a s log p) (hq : s.queue = []) (hf : ∀ y ∈ s.calls, Finished y.st) (pr : Proc) (v : Val)
    (body : Bytes) : SerialInv size a (s.call pr a v body) (log ++ []) p := by
  have hp := h.pool
  have e : s.call pr a v body = ⟨some p, [.acquire a s.calls.length],
      s.calls ++ [⟨pr, a, .waiting (.new v body)⟩], s.next⟩ := by
    simp [Sys.call, Sys.send, hp, hq]
  rw [e, List.append_nil]
  have hb : ∀ i y, s.calls[i]? = some y → Finished y.st ∧ (y.st ≠ .dropped → got i log ≠ []) := by
    intro i y hy
    refine ⟨hf y (List.mem_of_getElem? hy), ?_⟩
    by_cases hi : i + 1 < s.calls.length
    · exact (h.before i y hy hi).2
    · have hl := (List.getElem?_eq_some_iff.1 hy).1
      rcases h.last with ⟨h1, -⟩ | ⟨n, x, hn, hx, -, hT⟩
      · rw [h1] at hl; simp at hl
      · obtain rfl : i = n := by omega
        rw [hx] at hy; cases hy
        rw [hq] at hT
        generalize hst : y.st = st at hT
        generalize p.connections = conns at hT
        have := hf y (List.mem_of_getElem? hx)
        rw [hst] at this
        cases hT with
        | ready hg => exact fun _ => List.ne_nil_of_mem hg
        | connecting => exact absurd this (by simp [Finished])
        | active hg => exact fun _ => List.ne_nil_of_mem hg
        | idle hg => exact fun _ => List.ne_nil_of_mem hg
        | over _ _ hg => exact hg
  refine ⟨rfl, h.size, h.unlisted, .inr ⟨s.calls.length, ⟨pr, a, .waiting (.new v body)⟩, by simp, by simp, rfl,
    ?_⟩, ?_, ?_, ?_⟩
  · rcases h.last with ⟨h1, -, h3, h4⟩ | ⟨n, x, hn, hx, -, hT⟩
    · refine .waiting (.inl ⟨fun j hj => ?_, h3⟩) (by omega)
      rw [h1] at hj; simp at hj
    · have hfx := hf x (List.mem_of_getElem? hx)
      rw [hq] at hT
      generalize hst : x.st = st at hT
      rw [hst] at hfx
      have hno : (∀ v b, st ≠ .done v b) → ∀ j, s.calls.length = j + 1 →
          ¬ DoneIn (s.calls ++ [⟨pr, a, .waiting (.new v body)⟩]) j := by
        intro hnd j hj
        obtain rfl : j = n := by omega
        rw [doneIn_snoc _ (by omega)]
        rintro ⟨x', v, b, h1, h2⟩
        rw [hx] at h1; cases h1
        exact hnd v b (hst ▸ h2)
      generalize hc : p.connections = conns at hT
      generalize hs : p.seq = seq at hT
      cases hT with
      | ready => exact absurd hfx (by simp [Finished])
      | connecting => exact absurd hfx (by simp [Finished])
      | active => exact absurd hfx (by simp [Finished])
      | idle hg hsq =>
        rename_i v' b' c s'
        refine .waiting (.inr ⟨n, s', c, hn, ?_, hg, rfl⟩) (by omega)
        exact (doneIn_snoc _ (by omega)).2 ⟨x, v', b', hx, hst⟩
      | over _ hnd _ hsq => exact .waiting (.inl ⟨hno hnd, rfl⟩) (by omega)
  · intro i y hy hi
    simp only [List.length_append, List.length_singleton] at hi
    simp only [List.getElem?_append_left (show i < s.calls.length by omega)] at hy
    exact hb i y hy
  · intro i b c hm
    obtain ⟨h1, h2⟩ := h.opens i b c hm
    refine ⟨by simp; omega, fun j hj => ?_⟩
    rw [doneIn_snoc _ (by omega)]
    exact h2 j hj
  · intro i b c hm
    obtain ⟨j, h1, h2, h3⟩ := h.takes i b c hm
    have hj : j < s.calls.length := by
      obtain ⟨y, v, b, h4, -⟩ := h2
      exact (List.getElem?_eq_some_iff.1 h4).1
    exact ⟨j, h1, (doneIn_snoc _ hj).2 h2, h3⟩

theorem calls_le (size : Nat) (evs : List SysEvent) :
    (Sys.run evs (.new size)).2.calls.length ≤ evs.length := by
  have hset : ∀ (i : Nat) (y : PCall) (c : Conn) (inner : CallInner) (s : Sys) (o : CallOutcome),
      (Sys.settle i y c inner s o).2.calls.length = s.calls.length := by
    intro i y c inner s o
    cases o <;> simp only [Sys.settle, Sys.setCall, Sys.send]
    case ready => split <;> simp
    all_goals simp
  induction evs using List.reverseRecOn with
  | nil => simp [Sys.run, Sys.new]
  | append_singleton evs e ih =>
    rw [sys_run_append]
    generalize (Sys.run evs (.new size)).2 = s at ih ⊢
    have : (s.step e).2.calls.length ≤ s.calls.length + 1 := by
      cases e with
      | call pr b v body => simp only [Sys.step, Sys.call, Sys.send]; split <;> simp
      | handle now =>
        simp only [Sys.step, Sys.handle, Sys.dropPool, Sys.reply, Sys.setCall]
        repeat' split
        all_goals simp
      | setSuspended d => simp [Sys.step]
      | dropPool => simp only [Sys.step, Sys.dropPool]; split <;> simp
      | poll i r =>
        simp only [Sys.step, Sys.poll]
        repeat' split
        all_goals simp [hset, Sys.setCall, Sys.send]
        all_goals (try split) <;> simp
      | dropCall i =>
        simp only [Sys.step, Sys.dropCall, Sys.setCall]
        repeat' split
        all_goals simp
    simp only [Sys.run, List.length_append, List.length_singleton]
    omega

theorem serial_inv (size : Nat) (hsize : 1 ≤ size) (a : Addr) (evs : List SysEvent) (hs : Serial size a evs)
    (hp : .dropPool ∉ evs) (hr : ∀ i b, .refused i b ∉ (Sys.run evs (.new size)).1)
    (hn : evs.length < 2 ^ 64 - 1) :
    ∃ p, SerialInv size a (Sys.run evs (.new size)).2 (Sys.run evs (.new size)).1 p := by
  induction evs using List.reverseRecOn with
  | nil =>
    refine ⟨.withSize size, rfl, rfl, rfl, .inl ⟨rfl, rfl, rfl, rfl⟩, ?_, ?_, ?_⟩
    · intro i y hy; simp [Sys.run, Sys.new] at hy
    · intro i b c hm; simp [Sys.run] at hm
    · intro i b c hm; simp [Sys.run] at hm
  | append_singleton evs e ih =>
    simp only [sys_run_append] at hr ⊢
    obtain ⟨p, h⟩ := ih (fun l pr b v body l' he => hs l pr b v body (l' ++ [e]) (by rw [he]; simp))
      (fun hm => hp (List.mem_append_left _ hm)) (fun i b hm => hr i b (List.mem_append_left _ hm))
      (by simp at hn; omega)
    have hl : (Sys.run evs (.new size)).2.calls.length ≤ evs.length := calls_le size evs
    simp only [Sys.run, List.append_nil] at hr ⊢
    have hr' : ∀ i b, .refused i b ∉ ((Sys.run evs (.new size)).2.step e).1 :=
      fun i b hm => hr i b (List.mem_append_right _ hm)
    cases e with
    | call pr b v body =>
      obtain ⟨rfl, h1, h2⟩ := hs evs pr b v body [] rfl
      exact ⟨p, inv_call h h1 h2 pr v body⟩
    | handle now => exact inv_handle hsize h (by simp at hn; omega) now
    | setSuspended d =>
      refine ⟨p.setSuspended d, ?_⟩
      simp only [Sys.step, h.pool, Option.map_some, List.append_nil]
      exact ⟨rfl, h.size, h.unlisted, h.last, h.before, h.opens, h.takes⟩
    | dropPool => exact absurd (by simp) hp
    | poll i r => exact ⟨p, inv_poll h i r hr'⟩
    | dropCall i => exact ⟨p, inv_dropCall h i⟩

/-- **C132.** A call made when all is quiet gets a connection of its own only if there was no call before or that
has got no response; otherwise it gets the connection of that call. If it has ended by itself it has got one. -/
theorem C132_next (size : Nat) (hsize : 1 ≤ size) (a : Addr) (evs : List SysEvent) (hs : Serial size a evs)
    (hp : .dropPool ∉ evs) (hr : ∀ i b, .refused i b ∉ (Sys.run evs (.new size)).1)
    (hn : evs.length < 2 ^ 64 - 1) (i : Nat) :
    (∀ b c, .opened i b c ∈ (Sys.run evs (.new size)).1 →
      i = 0 ∨ ¬ HasResponse (Sys.run evs (.new size)).2 (i - 1)) ∧
    (∀ b c, .took i b c ∈ (Sys.run evs (.new size)).1 → 0 < i ∧
      HasResponse (Sys.run evs (.new size)).2 (i - 1) ∧ got (i - 1) (Sys.run evs (.new size)).1 = [c]) ∧
    (HasEnded (Sys.run evs (.new size)).2 i → ∃ b c, .opened i b c ∈ (Sys.run evs (.new size)).1 ∨
      .took i b c ∈ (Sys.run evs (.new size)).1) := by
  obtain ⟨p, h⟩ := serial_inv size hsize a evs hs hp hr hn
  refine ⟨fun b c hm => ?_, fun b c hm => ?_, ?_⟩
  · cases i with
    | zero => exact .inl rfl
    | succ j => exact .inr ((h.opens _ b c hm).2 j rfl)
  · obtain ⟨j, rfl, hd, hg⟩ := h.takes i b c hm
    refine ⟨by omega, hd, ?_⟩
    obtain ⟨y, v, body, h1, h2⟩ := hd
    obtain ⟨d, h3, -⟩ := C52_completed size evs j y v body h1 h2
    rw [h3] at hg
    rw [Nat.add_sub_cancel, h3, List.mem_singleton.1 hg]
  · rintro ⟨y, hy, hf, hd⟩
    have hne : got i (Sys.run evs (.new size)).1 ≠ [] := by
      by_cases hi : i + 1 < (Sys.run evs (.new size)).2.calls.length
      · exact (h.before i y hy hi).2 hd
      · have hl := (List.getElem?_eq_some_iff.1 hy).1
        rcases h.last with ⟨h1, -⟩ | ⟨n, x, hn, hx, -, hT⟩
        · rw [h1] at hl; simp at hl
        · obtain rfl : i = n := by omega
          rw [hx] at hy; cases hy
          generalize hst : y.st = st at hT hf hd
          generalize p.connections = conns at hT
          generalize (Sys.run evs (.new size)).2.queue = q at hT
          cases hT with
          | waiting => exact absurd hf (by simp [Finished])
          | dropped => exact absurd rfl hd
          | ready hg => exact List.ne_nil_of_mem hg
          | connecting => exact absurd hf (by simp [Finished])
          | active hg => exact List.ne_nil_of_mem hg
          | done hg => exact List.ne_nil_of_mem hg
          | idle hg => exact List.ne_nil_of_mem hg
          | over _ _ hg => exact hg hd
    obtain ⟨c, hc⟩ := List.exists_mem_of_ne_nil _ hne
    obtain ⟨e, he, h1⟩ := List.mem_filterMap.1 hc
    cases e with
    | opened j b d =>
      simp only [Option.ite_none_right_eq_some] at h1
      exact ⟨b, d, .inl (h1.1 ▸ he)⟩
    | took j b d =>
      simp only [Option.ite_none_right_eq_some] at h1
      exact ⟨b, d, .inr (h1.1 ▸ he)⟩
    | _ => simp at h1

/-- **C132.** So one connection is enough for all calls if the server answers all requests on it. -/
theorem C132_one_connection (size : Nat) (hsize : 1 ≤ size) (a : Addr) (evs : List SysEvent)
    (hs : Serial size a evs) (hp : .dropPool ∉ evs) (hr : ∀ i b, .refused i b ∉ (Sys.run evs (.new size)).1)
    (hn : evs.length < 2 ^ 64 - 1)
    (hall : ∀ i, (∃ y, (Sys.run evs (.new size)).2.calls[i]? = some y ∧ Finished y.st) →
      HasResponse (Sys.run evs (.new size)).2 i) (i : Nat) (b : Addr) (c : Conn)
    (h : .opened i b c ∈ (Sys.run evs (.new size)).1) : i = 0 := by
  obtain ⟨p, hi⟩ := serial_inv size hsize a evs hs hp hr hn
  obtain ⟨h1, h2⟩ := hi.opens i b c h
  cases i with
  | zero => rfl
  | succ j =>
    have hl : j < (Sys.run evs (.new size)).2.calls.length := by omega
    have hy := List.getElem?_eq_getElem hl
    exact absurd (hall j ⟨_, hy, (hi.before j _ hy h1).1⟩) (h2 j rfl)

/-- **C132.** Whatever calls there are at the same time and wherever they go: if no connection brings more than
one response, then no call that is given an idle connection gets one. -/
theorem C132_idle_useless (size : Nat) (evs : List SysEvent)
    (honce : ∀ c i j, c ∈ got i (Sys.run evs (.new size)).1 → c ∈ got j (Sys.run evs (.new size)).1 →
      HasResponse (Sys.run evs (.new size)).2 i → HasResponse (Sys.run evs (.new size)).2 j → i = j)
    (i : Nat) (b : Addr) (c : Conn) (h : .took i b c ∈ (Sys.run evs (.new size)).1) :
    ¬ HasResponse (Sys.run evs (.new size)).2 i := by
  intro hi
  obtain ⟨l, l', hl⟩ := List.append_of_mem h
  obtain ⟨x, j, y, v, body, -, hy, hne, -, hst, hret⟩ := C123_served size evs i b c l l' hl
  have hj : HasResponse (Sys.run evs (.new size)).2 j := ⟨y, v, body, hy, hst⟩
  obtain ⟨d, h1, h2⟩ := C52_completed size evs j y v body hy hst
  have hd : (y.addr, c) ∈ returns j (Sys.run evs (.new size)).1 :=
    List.mem_filterMap.2 ⟨_, by rw [hl]; exact List.mem_append_left _ hret, by simp⟩
  rw [h2, List.mem_singleton, Prod.mk.injEq] at hd
  refine hne (honce c j i ?_ ?_ hj hi)
  · rw [h1, hd.2]; exact List.mem_singleton.2 rfl
  · exact List.mem_filterMap.2 ⟨_, h, by simp⟩

/-- **C132.** But if the server answers only the first request on each connection and closes it then, as it may
(saying so in a header), every second call fails. -/
theorem C132_every_second (size : Nat) (hsize : 1 ≤ size) (a : Addr) (evs : List SysEvent)
    (hs : Serial size a evs) (hp : .dropPool ∉ evs) (hr : ∀ i b, .refused i b ∉ (Sys.run evs (.new size)).1)
    (hn : evs.length < 2 ^ 64 - 1) (hd : ∀ y ∈ (Sys.run evs (.new size)).2.calls, y.st ≠ .dropped)
    (hfirst : ∀ i b c, .opened i b c ∈ (Sys.run evs (.new size)).1 → HasEnded (Sys.run evs (.new size)).2 i →
      HasResponse (Sys.run evs (.new size)).2 i)
    (honce : ∀ c i j, c ∈ got i (Sys.run evs (.new size)).1 → c ∈ got j (Sys.run evs (.new size)).1 →
      HasResponse (Sys.run evs (.new size)).2 i → HasResponse (Sys.run evs (.new size)).2 j → i = j)
    (i : Nat) (h : HasEnded (Sys.run evs (.new size)).2 i) :
    HasResponse (Sys.run evs (.new size)).2 i ↔ Even i := by
  obtain ⟨p, hi⟩ := serial_inv size hsize a evs hs hp hr hn
  induction i with
  | zero =>
    obtain ⟨-, h2, h3⟩ := C132_next size hsize a evs hs hp hr hn 0
    obtain ⟨b, c, h4 | h4⟩ := h3 h
    · exact iff_of_true (hfirst _ _ _ h4 h) (by simp)
    · exact absurd (h2 b c h4).1 (by omega)
  | succ j ih =>
    obtain ⟨h1, h2, h3⟩ := C132_next size hsize a evs hs hp hr hn (j + 1)
    have hj : HasEnded (Sys.run evs (.new size)).2 j := by
      obtain ⟨y, hy, -⟩ := h
      have hl := (List.getElem?_eq_some_iff.1 hy).1
      have hx := List.getElem?_eq_getElem (Nat.lt_of_succ_lt hl)
      exact ⟨_, hx, (hi.before j _ hx hl).1, hd _ (List.mem_of_getElem? hx)⟩
    have ih := ih hj
    obtain ⟨b, c, h4 | h4⟩ := h3 h
    · have h5 := (h1 b c h4).resolve_left (by omega)
      rw [Nat.add_sub_cancel, ih] at h5
      exact iff_of_true (hfirst _ _ _ h4 h) (Nat.even_add_one.2 h5)
    · have h5 := (h2 b c h4).2.1
      rw [Nat.add_sub_cancel, ih] at h5
      exact iff_of_false (C132_idle_useless size evs honce _ _ _ h4) (fun h6 => Nat.even_add_one.1 h6 h5)

end
end Htrpc

/-! ### Examples -/

namespace Htrpc
open Spec

namespace SerialExamples
open RestartExamples (before before_run)

attribute [local instance] toyFloat

theorem serial_nil (size : Nat) (a : Addr) : Serial size a [] := by
  intro l p b v body l' h
  simp at h

theorem serial_snoc {size : Nat} {a : Addr} {evs : List SysEvent} (h : Serial size a evs) (e : SysEvent)
    (he : ∀ p b v body, e = .call p b v body → b = a ∧ (Sys.run evs (.new size)).2.queue = [] ∧
      ∀ y ∈ (Sys.run evs (.new size)).2.calls, Finished y.st) : Serial size a (evs ++ [e]) := by
  intro l p b v body l' h'
  rcases List.eq_nil_or_concat l' with rfl | ⟨m, x, rfl⟩
  · obtain ⟨rfl, h2⟩ := List.append_inj' h' rfl
    exact he p b v body (List.cons.inj h2).1
  · rw [List.concat_eq_append, ← List.cons_append, ← List.append_assoc] at h'
    obtain ⟨rfl, -⟩ := List.append_inj' h' rfl
    exact h l p b v body m rfl

theorem serial_others {size : Nat} {a : Addr} {evs : List SysEvent} (h : Serial size a evs)
    (es : List SysEvent) (he : ∀ e ∈ es, ∀ p b v body, e ≠ .call p b v body) : Serial size a (evs ++ es) := by
  induction es generalizing evs with
  | nil => rwa [List.append_nil]
  | cons e es ih =>
    have := ih (serial_snoc h e fun p b v body h0 => absurd h0 (he e List.mem_cons_self p b v body))
      fun e h => he e (List.mem_cons_of_mem _ h)
    rwa [List.append_assoc] at this

/-- The server closes the connection after the first answer; the second call notices. -/
def second : List SysEvent :=
  [.call exProc exA exCallArgs [1], .handle 2, .poll 1 .notReady, .poll 1 .failed]

/-- The third call gets a connection of its own. -/
def third : List SysEvent :=
  [.call exProc exA exCallArgs [1], .handle 3, .poll 2 .notReady, .poll 2 .connected, .poll 2 .written,
   .poll 2 (.head 404 []), .poll 2 (.body [7])]

theorem second_run : ∃ s, Sys.run (before ++ second) (.new 1) =
    (RestartExamples.log ++ [.took 1 exA 0, .io 1 0, .closed 0], s) ∧ s.queue = [] ∧ s.calls = [
      ⟨exProc, exA, .done (.unitVariant "NotFound".toList) [7]⟩, ⟨exProc, exA, .failed .other⟩] := by
  obtain ⟨r, hr⟩ := exCall_sent [1]
  have hd : deResponse exProc.resTy 404 [] = .ok (.unitVariant "NotFound".toList) := rfl
  have hm : exProc.method ≠ .head := by decide
  simp [before, second, RestartExamples.log, Sys.run, Sys.step, Sys.call, Sys.send, Sys.new, Sys.poll, Sys.handle,
    Cmd.event, Pool.step, Pool.handleAcquire, Pool.acquire, Pool.withSize, BTreeMap.firstFrom,
    Sys.reply, Sys.setCall, CallInner.new, hr, Sys.settle, callStep, callDecode, hd, hm, Pool.release,
    BTreeMap.insert, BTreeMap.remove, Pool.dropExceeded, ConnId.lt, natLt, exA]

theorem third_run : ∃ s, Sys.run (before ++ second ++ third) (.new 1) =
    (RestartExamples.log ++ [.took 1 exA 0, .io 1 0, .closed 0, .opened 2 exA 1, .io 2 1, .io 2 1, .io 2 1,
      .returned 2 exA 1], s) ∧ s.calls = [
      ⟨exProc, exA, .done (.unitVariant "NotFound".toList) [7]⟩, ⟨exProc, exA, .failed .other⟩,
      ⟨exProc, exA, .done (.unitVariant "NotFound".toList) [7]⟩] := by
  obtain ⟨r, hr⟩ := exCall_sent [1]
  have hd : deResponse exProc.resTy 404 [] = .ok (.unitVariant "NotFound".toList) := rfl
  have hm : exProc.method ≠ .head := by decide
  simp [before, second, third, RestartExamples.log, Sys.run, Sys.step, Sys.call, Sys.send, Sys.new, Sys.poll,
    Sys.handle, Cmd.event, Pool.step, Pool.handleAcquire, Pool.acquire, Pool.withSize, BTreeMap.firstFrom,
    Sys.reply, Sys.setCall, CallInner.new, hr, Sys.settle, callStep, callDecode, hd, hm, Pool.release,
    BTreeMap.insert, BTreeMap.remove, Pool.dropExceeded, ConnId.lt, natLt, exA]

theorem ex_first : Serial 1 exA before := by
  refine serial_others (serial_snoc (serial_nil 1 exA) (.call exProc exA exCallArgs [1]) ?_)
    before.tail (by simp [before])
  intro p b v body h
  cases h
  exact ⟨rfl, rfl, by simp [Sys.run, Sys.new]⟩

theorem ex_second : Serial 1 exA (before ++ second) := by
  obtain ⟨s, h, hq, hc⟩ := before_run
  have h1 : Serial 1 exA (before ++ [.call exProc exA exCallArgs [1]]) := by
    refine serial_snoc ex_first _ fun p b v body h0 => ?_
    cases h0
    rw [h]
    exact ⟨rfl, hq, by simp [hc, Finished]⟩
  have := serial_others h1 second.tail (by simp [second])
  rwa [List.append_assoc] at this

theorem ex_third : Serial 1 exA (before ++ second ++ third) := by
  obtain ⟨s, h, hq, hc⟩ := second_run
  have h1 : Serial 1 exA (before ++ second ++ [.call exProc exA exCallArgs [1]]) := by
    refine serial_snoc ex_second _ fun p b v body h0 => ?_
    cases h0
    rw [h]
    exact ⟨rfl, hq, by simp [hc, Finished]⟩
  have := serial_others h1 third.tail (by simp [third])
  rwa [List.append_assoc] at this

/-- `C132_next`: call 1 has taken the connection of call 0. -/
example : got 0 (Sys.run (before ++ second ++ third) (.new 1)).1 = [0] := by
  obtain ⟨s, h, hc⟩ := third_run
  refine ((C132_next 1 (by decide) exA _ ex_third (by simp [before, second, third]) ?_
    (by simp [before, second, third]) 1).2.1 exA 0 ?_).2.2 <;> rw [h] <;> simp [RestartExamples.log]

/-- `C132_one_connection`: after the first call. -/
example (i : Nat) (b : Addr) (c : Conn) (hm : .opened i b c ∈ (Sys.run before (.new 1)).1) : i = 0 := by
  obtain ⟨s, h, -, hc⟩ := before_run
  refine C132_one_connection 1 (by decide) exA _ ex_first (by simp [before]) ?_
    (by simp [before]) ?_ i b c hm
  · rw [h]; simp [RestartExamples.log]
  · rw [h]
    rintro i ⟨y, hy, -⟩
    have : i = 0 := by
      rw [hc] at hy
      exact Nat.lt_one_iff.1 (List.getElem?_eq_some_iff.1 hy).1
    subst this
    rw [hc] at hy
    cases hy
    exact ⟨_, _, _, by rw [hc]; rfl, rfl⟩

theorem once_of {s : Sys} {l : List Effect} (_ : Sys.run (before ++ second ++ third) (.new 1) = (l, s))
    (hc : s.calls = [⟨exProc, exA, .done (.unitVariant "NotFound".toList) [7]⟩, ⟨exProc, exA, .failed .other⟩,
      ⟨exProc, exA, .done (.unitVariant "NotFound".toList) [7]⟩]) (c : Conn) (i j : Nat)
    (hi : c ∈ got i (RestartExamples.log ++ [.took 1 exA 0, .io 1 0, .closed 0, .opened 2 exA 1, .io 2 1, .io 2 1,
      .io 2 1, .returned 2 exA 1]))
    (hj : c ∈ got j (RestartExamples.log ++ [.took 1 exA 0, .io 1 0, .closed 0, .opened 2 exA 1, .io 2 1, .io 2 1,
      .io 2 1, .returned 2 exA 1])) (h : HasResponse s i) (h' : HasResponse s j) : i = j := by
  have key : ∀ i, HasResponse s i → i = 0 ∨ i = 2 := by
    rintro i ⟨y, v, body, hy, hst⟩
    rw [hc] at hy
    match i with
    | 0 => exact .inl rfl
    | 1 => cases hy; cases hst
    | 2 => exact .inr rfl
    | i + 3 => cases hy
  rcases key i h with rfl | rfl <;> rcases key j h' with rfl | rfl <;> simp [got, RestartExamples.log] at hi hj ⊢ <;>
    exact absurd (hi.symm.trans hj) (by decide)

/-- `C132_idle_useless`: call 1 got the connection of call 0. -/
example : ¬ HasResponse (Sys.run (before ++ second ++ third) (.new 1)).2 1 := by
  obtain ⟨s, h, hc⟩ := third_run
  refine C132_idle_useless 1 _ ?_ 1 exA 0 (by rw [h]; simp)
  rw [h]
  exact once_of h hc

/-- `C132_every_second`: call 1 fails, calls 0 and 2 do not. -/
example (i : Nat) (hi : HasEnded (Sys.run (before ++ second ++ third) (.new 1)).2 i) :
    HasResponse (Sys.run (before ++ second ++ third) (.new 1)).2 i ↔ Even i := by
  obtain ⟨s, h, hc⟩ := third_run
  refine C132_every_second 1 (by decide) exA _ ex_third (by simp [before, second, third]) ?_
    (by simp [before, second, third]) ?_ ?_ ?_ i hi <;> rw [h]
  · simp [RestartExamples.log]
  · simp [hc]
  · intro i b c hm _
    simp [RestartExamples.log] at hm
    rcases hm with ⟨rfl, -⟩ | ⟨rfl, -⟩ <;> exact ⟨_, _, _, by rw [hc]; rfl, rfl⟩
  · exact once_of h hc

end SerialExamples

end Htrpc
