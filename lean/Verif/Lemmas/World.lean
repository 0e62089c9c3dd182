/-
Pooled clients and servers that run for ever: every call moves on.
-/
import Verif.Spec.World
import Verif.Props.Live
import Verif.Props.Progress
import Verif.Props.System

set_option linter.unusedSectionVars false

namespace Htrpc
open Spec Http

/-! ### Calls -/

section
variable [FloatText]

theorem wireLog_append (evs evs' : List SysEvent) (s : Sys) :
    wireLog (evs ++ evs') s = wireLog evs s ++ wireLog evs' (Sys.run evs s).2 := by
  induction evs generalizing s with
  | nil => rfl
  | cons e es ih => simp only [List.cons_append, wireLog, ih, Sys.run, List.append_assoc]

theorem active_same_or (c : Conn) (inner : CallInner) (p : Proc) (r : IoResult) {k : Nat}
    (hk : stage (.active c inner) = some k) :
    settled c inner (callStep p inner r) = .active c inner ∨
      ∃ m, k < m ∧ stage (settled c inner (callStep p inner r)) = some m := by
  obtain ⟨q, ph⟩ := inner
  have dec : ∀ code hs b, stage (settled c ⟨q, ph⟩ (callDecode p code hs b)) = some 5 := fun _ _ _ =>
    decode_stage ..
  cases ph with
  | connect => cases hk
  | write x =>
    cases hk
    cases r with
    | failed => exact .inr ⟨5, by omega, rfl⟩
    | written => exact .inr ⟨3, by omega, rfl⟩
    | _ => exact .inl rfl
  | readHead =>
    cases hk
    cases r with
    | failed => exact .inr ⟨5, by omega, rfl⟩
    | head code hs =>
      right
      by_cases hm : p.method = .head
      · refine ⟨5, by omega, ?_⟩
        simp only [callStep, hm, if_true]
        exact dec ..
      · refine ⟨4, by omega, ?_⟩
        simp only [callStep, hm, if_false]
        rfl
    | _ => exact .inl rfl
  | readBody code hs =>
    cases hk
    cases r with
    | failed => exact .inr ⟨5, by omega, rfl⟩
    | body b => exact .inr ⟨5, by omega, dec ..⟩
    | _ => exact .inl rfl

/-- A call that has left its first stage stays where it is or moves on. -/
theorem changes_same_or {i : Nat} {e : SysEvent} {p : Proc} {st st' : PCallSt} {k : Nat}
    (h : Changes i e p st st') (hk : stage st = some k) (h1 : 1 ≤ k) :
    st' = st ∨ ∃ m, k < m ∧ stage st' = some m := by
  cases h with
  | same => exact .inl rfl
  | reply =>
    simp only [stage] at hk
    split at hk <;> cases hk
    omega
  | dropped hf =>
    by_cases h5 : k = 5
    · exfalso
      subst h5
      unfold stage at hk
      split at hk
      · split at hk <;> cases hk
      · split at hk <;> cases hk
      · split at hk <;> cases hk
      · rename_i h1 h2 h3
        cases st with
        | waiting i => exact h1 i rfl
        | replied i f => exact h2 i f rfl
        | active c i => exact h3 c i rfl
        | _ => exact hf trivial
    · have := stage_le hk
      exact .inr ⟨5, by omega, rfl⟩
  | late => exact .inl rfl
  | poll alive next =>
    rename_i r
    cases st with
    | waiting inner =>
      simp only [stage] at hk
      split at hk <;> cases hk
      omega
    | replied inner f =>
      simp only [stage] at hk
      split at hk <;> cases hk
      next hc =>
      cases f with
      | ready c =>
        obtain ⟨m, h1, h2⟩ := connected_stage p c inner hc
        exact .inr ⟨m, by omega, h1⟩
      | failed => exact .inr ⟨5, by omega, rfl⟩
      | connecting a =>
        cases r with
        | connected =>
          obtain ⟨m, h1, h2⟩ := connected_stage p next inner hc
          exact .inr ⟨m, by omega, h1⟩
        | failed => exact .inr ⟨5, by omega, rfl⟩
        | _ => exact .inl rfl
    | active c inner => exact active_same_or c inner p r hk
    | _ => exact .inl rfl

end

namespace Spec.World

section
variable [FloatText] [UrlText] [JsonText] {w : World}

theorem sys_succ (n : Nat) : w.sys (n + 1) = ((w.sys n).step (w.clients n)).2 := by
  rw [sys, upTo_succ, run_then]; rfl

theorem sys_le {n m : Nat} (h : n ≤ m) : ∃ evs, upTo w.clients m = upTo w.clients n ++ evs ∧
    w.sys m = (Sys.run evs (w.sys n)).2 := by
  obtain ⟨b, hb⟩ := upTo_le w.clients h
  exact ⟨b, hb, by rw [sys, hb, sys_run_append]; rfl⟩

theorem reached_le {n m i k : Nat} (h : n ≤ m) (hr : (w.sys n).Reached i k) :
    (w.sys m).Reached i k := by
  obtain ⟨evs, -, h2⟩ := sys_le (w := w) h
  rw [h2]
  exact reached_run hr evs

theorem wire_le {n m : Nat} (h : n ≤ m) (c : Conn) : w.wire n c <+: w.wire m c := by
  obtain ⟨evs, h1, -⟩ := sys_le (w := w) h
  rw [wire, wire, h1, wireLog_append, onConn_append]
  exact List.prefix_append ..

/-- A call that never gets further than this stage stays in the same state. -/
theorem stays {n i k : Nat} {y : PCall} (hy : (w.sys n).calls[i]? = some y)
    (hk : stage y.st = some k) (h1 : 1 ≤ k) (hno : ∀ m, ¬ (w.sys m).Reached i (k + 1)) {m : Nat}
    (hm : n ≤ m) : ∃ y', (w.sys m).calls[i]? = some y' ∧ y'.proc = y.proc ∧ y'.st = y.st := by
  induction hm with
  | refl => exact ⟨y, hy, rfl, rfl⟩
  | @step m _ ih =>
    obtain ⟨y', e1, e2, e3⟩ := ih
    obtain ⟨z, g1, g2, g3⟩ := step_changes (w.sys m) (w.clients m) i y' e1
    rw [← sys_succ] at g1
    rcases changes_same_or g3 (by rw [e3]; exact hk) h1 with h | ⟨j, h2, h3⟩
    · exact ⟨z, g1, g2.trans e2, h.trans e3⟩
    · exact absurd ⟨z, j, g1, h3, h2⟩ (hno (m + 1))

end

section
variable [FloatText] [UrlText] [JsonText] [MethodNames] {w : World}

/-- A call that is given a result moves on. -/
theorem Offered.moves {n i : Nat} {r : IoResult} (h : Offered w n i r) {y : PCall} {k : Nat}
    (hy : (w.sys n).calls[i]? = some y) (hk : stage y.st = some k)
    (he : w.clients n = .poll i r) : (w.sys (n + 1)).Reached i (k + 1) := by
  have hnext : (w.sys (n + 1)).calls[i]? =
      some { y with st := polled (w.sys n).pool.isSome (w.sys n).next y.proc r y.st } := by
    rw [sys_succ, he]
    simp only [Sys.step]
    rw [poll_calls _ i r y hy]
    exact set_get_self hy
  suffices ∃ m, stage (polled (w.sys n).pool.isSome (w.sys n).next y.proc r y.st) = some m ∧
      k + 1 ≤ m by
    obtain ⟨m, h1, h2⟩ := this
    exact ⟨_, m, hnext, h1, h2⟩
  have same : ∀ {z}, (w.sys n).calls[i]? = some z → z = y := fun hz => by
    rw [hy] at hz; exact (Option.some.inj hz).symm
  cases h with
  | gone h1 h2 h3 =>
    cases same h1
    rw [h2] at hk ⊢
    rw [h3]
    simp only [stage] at hk
    split at hk <;> cases hk
    exact ⟨5, rfl, by omega⟩
  | given h1 h2 =>
    cases same h1
    rw [h2] at hk ⊢
    simp only [stage] at hk
    split at hk <;> cases hk
    next hc => exact connected_stage _ _ _ hc
  | suspended h1 h2 =>
    cases same h1
    rw [h2] at hk ⊢
    simp only [stage] at hk
    split at hk <;> cases hk
    exact ⟨5, rfl, by omega⟩
  | connected h1 h2 =>
    cases same h1
    rw [h2] at hk ⊢
    simp only [stage] at hk
    split at hk <;> cases hk
    next hc => exact connected_stage _ _ _ hc
  | written h1 h2 h3 =>
    cases same h1
    rw [h2] at hk ⊢
    simp only [stage, h3] at hk
    cases hk
    exact ⟨3, by simp [polled, callStep, h3, settled, stage], by omega⟩
  | head h1 h2 h3 =>
    cases same h1
    rw [h2] at hk ⊢
    simp only [stage, h3] at hk
    cases hk
    simp only [polled, callStep, h3]
    split
    · exact ⟨5, decode_stage .., by omega⟩
    · exact ⟨4, rfl, by omega⟩
  | body h1 h2 h3 =>
    cases same h1
    rw [h2] at hk ⊢
    simp only [stage, h3] at hk
    cases hk
    simp only [polled, callStep, h3]
    exact ⟨5, decode_stage .., by omega⟩

/-- A call that is offered something all the time moves on. -/
theorem moves_on (hf : w.Fair) {n i k : Nat} (hr : (w.sys n).Reached i k)
    (hno : ∀ m, ¬ (w.sys m).Reached i (k + 1)) : ¬ ∀ m, n ≤ m → ∃ r, Offered w m i r := by
  intro hoff
  obtain ⟨m, hm, h | h⟩ := hf.calls n i (hoff n (Nat.le_refl _))
  · obtain ⟨r, he, ho⟩ := h
    obtain ⟨y, j, hy, hj, hkj⟩ := reached_le hm hr
    have : j = k := by
      by_cases hjk : j = k
      · exact hjk
      · exact absurd ⟨y, j, hy, hj, by omega⟩ (hno m)
    subst this
    exact hno (m + 1) (ho.moves hy hj he)
  · exact h (hoff m hm)

/-- A call is answered by the pool some time, or fails because the pool is gone. -/
theorem leaves_queue (hf : w.Fair) {n i : Nat} (hi : i < (w.sys n).calls.length) :
    ∃ m, (w.sys m).Reached i 1 := by
  refine Classical.byContradiction fun hno => ?_
  have hno : ∀ m, ¬ (w.sys m).Reached i 1 := fun m h => hno ⟨m, h⟩
  have hr : (w.sys n).Reached i 0 := reached_new w.size _ i hi
  have hwait : ∀ m, n ≤ m → ∃ y inner, (w.sys m).calls[i]? = some y ∧ y.st = .waiting inner := by
    intro m hm
    obtain ⟨y, j, hy, hj, -⟩ := reached_le hm hr
    have : ¬ 1 ≤ j := fun h => hno m ⟨y, j, hy, hj, h⟩
    have : j = 0 := by omega
    subst this
    obtain ⟨p, a, st⟩ := y
    cases st with
    | waiting inner => exact ⟨_, inner, hy, rfl⟩
    | replied inner f =>
      simp only [stage] at hj
      split at hj <;> cases hj
    | active c inner =>
      simp only [stage] at hj
      split at hj <;> cases hj
    | _ => cases hj
  have hpool : ∀ m, n ≤ m → (w.sys m).pool ≠ none := by
    intro m hm hp
    refine moves_on hf (reached_le hm hr) hno fun m' hm' => ?_
    obtain ⟨y, inner, h1, h2⟩ := hwait m' (Nat.le_trans hm hm')
    refine ⟨.notReady, .gone h1 h2 ?_⟩
    obtain ⟨evs, -, h3⟩ := sys_le (w := w) hm'
    rw [h3]
    exact C53_dropped_stays _ _ hp
  have hlen : ∀ m, n ≤ m → i < (w.sys m).calls.length := by
    intro m hm
    obtain ⟨y, inner, h1, -⟩ := hwait m hm
    exact (List.getElem?_eq_some_iff.1 h1).1
  have hqueue : ∀ m, n ≤ m → (w.sys m).queue ≠ [] := by
    intro m hm hq
    obtain ⟨y, inner, h1, h2⟩ := hwait m hm
    exact hpool m hm (C53_answered w.size (upTo w.clients m) [] i y inner (hlen m hm)
      (by rw [show (Sys.run (upTo w.clients m) (.new w.size)).2.queue = [] from hq]; simp) h1 h2)
  have hmany : ∀ k, ∃ m evs, n ≤ m ∧ upTo w.clients m = upTo w.clients n ++ evs ∧
      k ≤ handles evs := by
    intro k
    induction k with
    | zero => exact ⟨n, [], Nat.le_refl _, by simp, Nat.zero_le _⟩
    | succ k ih =>
      obtain ⟨m, evs, h1, h2, h3⟩ := ih
      obtain ⟨m', hm', ⟨now, h⟩ | h | h⟩ := hf.pool m
      · obtain ⟨b, hb⟩ := upTo_le w.clients hm'
        refine ⟨m' + 1, evs ++ b ++ [.handle now], by omega, ?_, ?_⟩
        · rw [upTo_succ, hb, h2, h]
          simp only [List.append_assoc]
        · have : handles (evs ++ b ++ [.handle now]) = handles evs + handles b + 1 := by
            simp [handles, Nat.add_assoc]
          omega
      · exact absurd h (hpool m' (by omega))
      · exact absurd h (hqueue m' (by omega))
  obtain ⟨m, evs, h1, h2, h3⟩ := hmany (w.sys n).queue.length
  obtain ⟨y, inner, h4, h5⟩ := hwait m h1
  have e : w.sys m = (Sys.run evs (w.sys n)).2 := by
    rw [sys, h2, sys_run_append]; rfl
  rw [e] at h4
  exact hpool m h1 (by rw [e]; exact C53_answered w.size (upTo w.clients n) evs i y inner hi h3 h4 h5)

/-- A call that was answered gets a connection some time, or fails. -/
theorem gets_connection (hf : w.Fair) {n i : Nat} (h : (w.sys n).Reached i 1) :
    ∃ m, (w.sys m).Reached i 2 := by
  refine Classical.byContradiction fun hno => ?_
  have hno : ∀ m, ¬ (w.sys m).Reached i (1 + 1) := fun m h => hno ⟨m, h⟩
  obtain ⟨y, j, hy, hj, h1⟩ := h
  have : j = 1 := by
    by_cases h : j = 1
    · exact h
    · exact absurd ⟨y, j, hy, hj, by omega⟩ (hno n)
  subst this
  refine moves_on hf ⟨y, 1, hy, hj, Nat.le_refl _⟩ hno fun m hm => ?_
  obtain ⟨y', e1, e2, e3⟩ := stays hy hj (Nat.le_refl _) hno hm
  cases hst : y.st with
  | waiting inner => rw [hst] at hj; simp only [stage] at hj; split at hj <;> cases hj
  | replied inner f =>
    rw [hst] at e3
    cases f with
    | ready c => exact ⟨.notReady, .given e1 e3⟩
    | failed => exact ⟨.notReady, .suspended e1 e3⟩
    | connecting a => exact ⟨.connected, .connected e1 e3⟩
  | active c inner => rw [hst] at hj; simp only [stage] at hj; split at hj <;> cases hj
  | _ => rw [hst] at hj; cases hj

/-- The state of a call in one of the last stages. -/
theorem active_of_stage {st : PCallSt} {k : Nat} (h : stage st = some k) (h2 : 2 ≤ k) (h5 : k < 5) :
    ∃ c inner, st = .active c inner := by
  cases st with
  | waiting inner => simp only [stage] at h; split at h <;> cases h; omega
  | replied inner f => simp only [stage] at h; split at h <;> cases h; omega
  | active c inner => exact ⟨c, inner, rfl⟩
  | _ => cases h; omega

/-- A call that has a connection has written its request some time, or fails. -/
theorem gets_written (hf : w.Fair) {n i : Nat} (h : (w.sys n).Reached i 2) :
    ∃ m, (w.sys m).Reached i 3 := by
  refine Classical.byContradiction fun hno => ?_
  have hno : ∀ m, ¬ (w.sys m).Reached i (2 + 1) := fun m h => hno ⟨m, h⟩
  obtain ⟨y, j, hy, hj, h1⟩ := h
  have : j = 2 := by
    by_cases h : j = 2
    · exact h
    · exact absurd ⟨y, j, hy, hj, by omega⟩ (hno n)
  subst this
  refine moves_on hf ⟨y, 2, hy, hj, Nat.le_refl _⟩ hno fun m hm => ?_
  obtain ⟨y', e1, e2, e3⟩ := stays hy hj (by omega) hno hm
  obtain ⟨c, inner, hst⟩ := active_of_stage hj (by omega) (by omega)
  rw [hst] at e3 hj
  obtain ⟨q, ph⟩ := inner
  cases ph with
  | write r => exact ⟨.written, .written e1 e3 rfl⟩
  | _ => cases hj

end

section
variable [LawfulFloatText] [UrlText] [JsonText] [MethodNames] {w : World}
  {types : Nat → List (Str × Ty)}

/-- While a call waits for its response, nobody else uses its connection. -/
theorem wire_same {n m i : Nat} (h : n ≤ m) {c : Conn} {r r' : Request} {E E' : List WireStep}
    (h1 : w.wire n c = E ++ [.sends i r, .sent i]) (h2 : w.wire m c = E' ++ [.sends i r', .sent i]) :
    w.wire m c = w.wire n c := by
  obtain ⟨evs, e1, -⟩ := sys_le (w := w) h
  have honce := (wire_reach w.size (upTo w.clients m)).2.once
  have hm : w.wire m c = w.wire n c ++ onConn c (wireLog evs (w.sys n)) := by
    rw [wire, e1, wireLog_append, onConn_append]; rfl
  rw [e1, wireLog_append, List.filterMap_append, List.nodup_append] at honce
  have hdis := honce.2.2
  have hsent : (c, WireStep.sends i r) ∈ wireLog (upTo w.clients n) (.new w.size) := by
    rw [← onConn_mem]
    show _ ∈ w.wire n c
    rw [h1]
    simp
  generalize hext : onConn c (wireLog evs (w.sys n)) = ext at hm
  rw [hm]
  rcases List.eq_nil_or_concat ext with rfl | ⟨ext1, b, rfl⟩
  · rw [List.append_nil]
  · exfalso
    rcases List.eq_nil_or_concat ext1 with rfl | ⟨ext2, a, rfl⟩
    · rw [h2, h1] at hm
      have : E' ++ [WireStep.sends i r', .sent i] = (E ++ [.sends i r]) ++ [.sent i, b] := by
        rw [hm]; simp
      have := List.append_inj_right' this rfl
      simp at this
    · rw [h2] at hm
      have : E' ++ [WireStep.sends i r', .sent i] = (w.wire n c ++ ext2) ++ [a, b] := by
        rw [hm]; simp
      have := List.append_inj_right' this rfl
      simp only [List.cons.injEq, and_true] at this
      obtain ⟨rfl, rfl⟩ := this
      have hmem : (c, WireStep.sends i r') ∈ wireLog evs (w.sys n) := by
        rw [← onConn_mem, hext]
        simp
      exact hdis i (List.mem_filterMap.2 ⟨_, hsent, rfl⟩) i (List.mem_filterMap.2 ⟨_, hmem, rfl⟩) rfl

theorem log_le {n m : Nat} (h : n ≤ m) (c : Conn) : w.log n c <+: w.log m c := by
  let := httpWire
  obtain ⟨b, hb⟩ := upTo_le (w.servers c) h
  rw [log, log, hb, conn_run_append]
  exact List.prefix_append ..

theorem answers_le {a b : List ConnEffect} (h : a <+: b) : answers a <+: answers b := by
  obtain ⟨c, rfl⟩ := h
  rw [answers_append]
  exact List.prefix_append ..

/-- What is left to be read after some exchanges: the next responses. -/
theorem reads_left (hw : w.Works) (he : w.Expressible types) {n : Nat} {c : Conn}
    {E x : List WireStep} (hl : w.wire n c = E ++ x) (hE : InTurn E) :
    ∃ rest hs, ReadsOff [] (Spec.written w.phrase (answers (w.log n c))) (w.wire n c) rest ∧
      ReadsOff hs (Spec.written w.phrase ((answers (w.log n c)).drop (requestsOn E).length)) x rest := by
  let := httpWire
  obtain ⟨d, left, ⟨more, hmore⟩, hoff⟩ := (hw.linked n c).back
  have hoff := hoff.append more
  rw [hmore] at hoff
  have hgood := conn_good w.size (upTo w.clients n) types (he n) c (w.cfg c) (upTo (w.servers c) n)
    w.phrase (w.read c) (hw.linked n c) (hw.bodies n c) (hw.safe n c)
  refine ⟨left ++ more, ?_⟩
  obtain ⟨xs, rfl, hxs⟩ := hE.exchanges
  have hoff' := hoff
  rw [hl] at hoff'
  obtain ⟨as', hs', rfl, -, h1⟩ := reads_turns (hw.linked n c).phrases hxs (fun n a j r h0 h1 => by
    refine hgood n a j r h0 ?_
    rw [show onConn c (wireLog (upTo w.clients _) (.new w.size)) = _ from hl]
    exact h1) hoff'
  exact ⟨hs', hoff, h1⟩

/-- The response at a place can be read. -/
theorem good_at (hw : w.Works) (he : w.Expressible types) {n : Nat} {c : Conn} {k i : Nat}
    {r : Request} {a : Response} (hr : (requestsOn (w.wire n c))[k]? = some (i, r))
    (ha : (answers (w.log n c))[k]? = some a) : Good r.method a := by
  let := httpWire
  exact conn_good w.size (upTo w.clients n) types (he n) c (w.cfg c) (upTo (w.servers c) n)
    w.phrase (w.read c) (hw.linked n c) (hw.bodies n c) (hw.safe n c) k a i r ha hr

/-- The server answers a request that was written. -/
theorem gets_answer (hw : w.Works) (hf : w.Fair) (he : w.Expressible types) {n i : Nat} {c : Conn}
    {r : Request} {E : List WireStep} (hl : w.wire n c = E ++ [.sends i r, .sent i])
    (hsame : ∀ m, n ≤ m → w.wire m c = w.wire n c) :
    ∃ N, n ≤ N ∧ ∀ m, N ≤ m → (requestsOn E).length < (answers (w.log m c)).length := by
  let := httpWire
  obtain ⟨M0, hM0⟩ := hw.delivered n c i (by rw [hl]; simp)
  obtain ⟨cs, -, hiss⟩ := conn_issues w.size (upTo w.clients n) types (he n) c
  have harr : ∀ m, arriving (upTo (w.servers c) m) <+:
      (requestsOn (w.wire n c)).flatMap fun x => writeRequest x.2 := by
    intro m
    obtain ⟨b, hb⟩ := upTo_le (w.servers c) (Nat.le_max_left m n)
    have h1 := (hw.linked (max m n) c).there
    rw [hsame _ (Nat.le_max_right m n)] at h1
    refine List.IsPrefix.trans ?_ h1
    rw [hb]
    exact arriving_prefix ..
  have hmsg := issues_messages hiss
  have hflat : ((requestsOn (w.wire n c)).map Prod.snd).flatMap writeRequest =
      (requestsOn (w.wire n c)).flatMap fun x => writeRequest x.2 := by
    rw [List.flatMap_map]
  rw [show onConn c (wireLog (upTo w.clients n) (.new w.size)) = w.wire n c from rfl] at hmsg hiss
  rw [hflat] at hmsg
  obtain ⟨N, hN⟩ := C84_all_answered (g := w.read c) (w.cfg c) (w.servers c) _ _ hmsg
    ⟨M0, (harr M0).eq_of_length_le hM0.length_le⟩ (fun m => hw.bodies m c) (fun m => hw.smooth m c)
    (by
      rintro ⟨h, b⟩ hm ⟨t, ht, hs⟩
      obtain ⟨r', hr', hrr⟩ := List.mem_map.1 hm
      cases hrr
      obtain ⟨k, hk⟩ := List.mem_iff_getElem?.1 hr'
      obtain ⟨hkr, hk1⟩ := List.getElem?_eq_some_iff.1 hk
      have hkc : k < cs.length := by rw [hiss.length_eq]; exact hkr
      have hi := (List.forall₂_iff_get.1 hiss).2 k hkc hkr
      simp only [List.get_eq_getElem, hk1] at hi
      obtain ⟨-, -, t', segs, e1, e2, -⟩ := C75_request (w.cfg c).oracle _ _ _ _
        hi.typed hi.distinct hi.query hi.header _ r' hi.sent hi.safe.ascii
      rw [e1] at ht
      cases ht
      rw [e2] at hs
      cases hs) (hf.servers c)
  refine ⟨max N n, Nat.le_max_right _ _, fun m hm => ?_⟩
  have h1 := (C39_one_at_a_time (w.cfg c) (upTo (w.servers c) N) _ (List.prefix_refl _)).1
  have h2 := hN.2
  have h3 := (answers_le (log_le (w := w) (Nat.le_trans (Nat.le_max_left N n) hm) c)).length_le
  have h4 : (requestsOn (w.wire n c)).length = (requestsOn E).length + 1 := by
    rw [hl, requestsOn_append]; simp [requestsOn]
  simp only [List.length_map] at h2
  have h5 : (answers (connLog (w.cfg c) (upTo (w.servers c) N))).length =
      (answers (w.log N c)).length := rfl
  omega

/-- A call that has written its request reads the head of the response some time, or fails. -/
theorem gets_head (hw : w.Works) (hf : w.Fair) (he : w.Expressible types) {n i : Nat}
    (h : (w.sys n).Reached i 3) : ∃ m, (w.sys m).Reached i 4 := by
  refine Classical.byContradiction fun hno => ?_
  have hno : ∀ m, ¬ (w.sys m).Reached i (3 + 1) := fun m h => hno ⟨m, h⟩
  obtain ⟨y, j, hy, hj, h1⟩ := h
  have : j = 3 := by
    by_cases h : j = 3
    · exact h
    · exact absurd ⟨y, j, hy, hj, by omega⟩ (hno n)
  subst this
  obtain ⟨c, inner, hst⟩ := active_of_stage hj (by omega) (by omega)
  have hph : inner.phase = .readHead := by
    rw [hst] at hj
    obtain ⟨q, ph⟩ := inner
    cases ph <;> first | rfl | cases hj
  have hstay := fun m hm => stays hy hj (by omega) hno (m := m) hm
  have hduring : ∀ m, n ≤ m → ∃ r E, InTurn E ∧ w.wire m c = E ++ [.sends i r, .sent i] := by
    intro m hm
    obtain ⟨y', e1, -, e3⟩ := hstay m hm
    have := (wire_reach w.size (upTo w.clients m)).1.active i y' inner c e1 (e3.trans hst)
    rw [hph] at this
    obtain ⟨r, E, -, h2, h3⟩ := this
    exact ⟨r, E, h2, h3⟩
  obtain ⟨r, E, hE, hl⟩ := hduring n (Nat.le_refl _)
  have hsame : ∀ m, n ≤ m → w.wire m c = w.wire n c := by
    intro m hm
    obtain ⟨r', E', -, h3⟩ := hduring m hm
    exact wire_same hm hl h3
  obtain ⟨N, hnN, hN⟩ := gets_answer hw hf he hl hsame
  refine moves_on hf (reached_le hnN ⟨y, 3, hy, hj, Nat.le_refl _⟩) hno fun m hm => ?_
  obtain ⟨y', e1, -, e3⟩ := hstay m (Nat.le_trans hnN hm)
  have hlm := (hsame m (Nat.le_trans hnN hm)).trans hl
  obtain ⟨rest, hs, h2, h3⟩ := reads_left hw he hlm hE
  have hlt := hN m hm
  have hrest : rest = Spec.written w.phrase ((answers (w.log m c)).drop (requestsOn E).length) := by
    cases h3 with | sends h3 => cases h3 with | sent h3 => cases h3; rfl
  have hdrop := List.drop_eq_getElem_cons hlt
  rw [hdrop] at hrest
  generalize ha : (answers (w.log m c))[(requestsOn E).length] = a at hrest
  have hwr : ∀ as, Spec.written w.phrase (a :: as) =
      writeResponse (w.phrase a.status) a ++ Spec.written w.phrase as := by
    intro as; simp [Spec.written]
  rw [hwr] at hrest
  have hg : Good r.method a := good_at hw he (k := (requestsOn E).length) (i := i)
    (by rw [hlm, requestsOn_append, List.getElem?_append_right (Nat.le_refl _), Nat.sub_self]; rfl)
    (by rw [List.getElem?_eq_getElem hlt, ha])
  exact ⟨_, .head e1 (e3.trans hst) hph (List.prefix_refl _) h2
    (by rw [hrest]; exact readResponseHead_write ((hw.linked m c).phrases _) hg.1 _)⟩

/-- A call that has read the head of the response reads the body some time, or fails. -/
theorem gets_body (hw : w.Works) (hf : w.Fair) (he : w.Expressible types) {n i : Nat}
    (h : (w.sys n).Reached i 4) : ∃ m, (w.sys m).Reached i 5 := by
  refine Classical.byContradiction fun hno => ?_
  have hno : ∀ m, ¬ (w.sys m).Reached i (4 + 1) := fun m h => hno ⟨m, h⟩
  obtain ⟨y, j, hy, hj, h1⟩ := h
  have : j = 4 := by
    by_cases h : j = 4
    · exact h
    · exact absurd ⟨y, j, hy, hj, by omega⟩ (hno n)
  subst this
  obtain ⟨c, inner, hst⟩ := active_of_stage hj (by omega) (by omega)
  obtain ⟨code, hs, hph⟩ : ∃ code hs, inner.phase = .readBody code hs := by
    rw [hst] at hj
    obtain ⟨q, ph⟩ := inner
    cases ph <;> first | exact ⟨_, _, rfl⟩ | cases hj
  refine moves_on hf ⟨y, 4, hy, hj, Nat.le_refl _⟩ hno fun m hm => ?_
  obtain ⟨y', e1, e2, e3⟩ := stays hy hj (by omega) hno hm
  have := (wire_reach w.size (upTo w.clients m)).1.active i y' inner c e1 (e3.trans hst)
  rw [hph] at this
  obtain ⟨r, E, hrm, hnm, hE, hl⟩ := this
  obtain ⟨rest, hs0, h2, h3⟩ := reads_left hw he (n := m) hl hE
  have hl' : w.wire m c = _ := hl
  cases h3 with | sends h3 => cases h3 with | sent h3 => cases h3 with | head h4 h3 =>
  cases h3
  by_cases hlt : (requestsOn E).length < (answers (w.log m c)).length
  · have hdrop := List.drop_eq_getElem_cons hlt
    rw [hdrop] at h4
    generalize ha : (answers (w.log m c))[(requestsOn E).length] = a at h4
    have hwr : ∀ as, Spec.written w.phrase (a :: as) =
        writeResponse (w.phrase a.status) a ++ Spec.written w.phrase as := by
      intro as; simp [Spec.written]
    have hg : Good r.method a := good_at hw he (k := (requestsOn E).length) (i := i)
      (by rw [hl', requestsOn_append, List.getElem?_append_right (Nat.le_refl _), Nat.sub_self]; rfl)
      (by rw [List.getElem?_eq_getElem hlt, ha])
    rw [hwr, readResponseHead_write ((hw.linked m c).phrases _) hg.1] at h4
    cases h4
    obtain ⟨f, h5, h6⟩ := readBody_good hg (by rw [hrm]; exact hnm)
    exact ⟨_, .body e1 (e3.trans hst) hph (List.prefix_refl _) h2 h5 (h6 _)⟩
  · rw [List.drop_eq_nil_of_le (Nat.le_of_not_lt hlt)] at h4
    cases h4

/-- Every call ends. -/
theorem ends (hw : w.Works) (hf : w.Fair) (he : w.Expressible types) {n i : Nat}
    (hi : i < (w.sys n).calls.length) : ∃ m, (w.sys m).Reached i 5 := by
  obtain ⟨m1, h1⟩ := leaves_queue hf hi
  obtain ⟨m2, h2⟩ := gets_connection hf h1
  obtain ⟨m3, h3⟩ := gets_written hf h2
  obtain ⟨m4, h4⟩ := gets_head hw hf he h3
  exact gets_body hw hf he h4

end

section
variable [FloatText] [UrlText] [JsonText] {w : World}

/-- A call that has ended stays so. -/
theorem finished_stays {n i : Nat} {y : PCall} (hy : (w.sys n).calls[i]? = some y)
    (hf : Finished y.st) : w.Ends i n y.st := by
  refine ⟨hf, fun m hm => ?_⟩
  induction hm with
  | refl => exact ⟨y, hy, rfl⟩
  | @step m _ ih =>
    obtain ⟨y', e1, e2⟩ := ih
    obtain ⟨z, g1, g2, g3⟩ := step_changes (w.sys m) (w.clients m) i y' e1
    rw [← sys_succ] at g1
    refine ⟨z, g1, ?_⟩
    rw [← e2] at hf ⊢
    generalize y'.st = st at g3 hf
    generalize z.st = st' at g3
    generalize w.clients m = e at g3
    cases g3 with
    | same => rfl
    | reply => exact hf.elim
    | poll => cases st <;> first | rfl | exact hf.elim
    | dropped h0 => exact absurd hf h0
    | late => rfl

/-- The end of a call that reads this response. -/
def endOf (p : Proc) (code : Nat) (hs : List Header) (b : Bytes) : PCallSt :=
  match deResponse p.resTy code hs with
  | .ok v => .done v b
  | .err k => .failed k
  | .panic => .panicked

theorem settled_decode (c : Conn) (inner : CallInner) (p : Proc) (code : Nat) (hs : List Header)
    (b : Bytes) : settled c inner (callDecode p code hs b) = endOf p code hs b := by
  unfold callDecode endOf
  cases deResponse p.resTy code hs <;> rfl

/-- The call has read a response to its own request, and has ended with it. -/
def Through (w : World) (i n : Nat) (p : Proc) (st : PCallSt) : Prop :=
  ∃ c E x code hs b, w.wire n c = E ++ x ∧ InTurn E ∧ Exchanged i x ∧ .head i code hs ∈ x ∧
    (∀ code' hs', .head i code' hs' ∈ x → code' = code ∧ hs' = hs) ∧
    ((p.method = .head ∧ b = []) ∨ (p.method ≠ .head ∧ .body i b ∈ x)) ∧ st = endOf p code hs b

/-- How far a call can be if nothing from outside makes it fail. -/
def Way (w : World) (i n : Nat) (p : Proc) (v : Val) (body : Bytes) (y : PCall) : Prop :=
  y.proc = p ∧
  ((∃ inner, y.st = .waiting inner) ∨ (∃ f, y.st = .replied (.new v body) f ∧ f ≠ .failed) ∨
    (∃ c inner, y.st = .active c inner) ∨ ∃ m, m ≤ n ∧ Through w i m p y.st)

theorem way_step {i n : Nat} {p : Proc} {a : Addr} {v : Val} {body : Bytes} {r : Request}
    (hr : serRequest p.method p.entry v body = .ok r)
    (hask : (asked (upTo w.clients n))[i]? = some (p, a, v, body)) [MethodNames]
    (hu : w.Unharmed i a) {y : PCall} (hy : (w.sys n).calls[i]? = some y) (hway : Way w i n p v body y) :
    ∃ z, (w.sys (n + 1)).calls[i]? = some z ∧ Way w i (n + 1) p v body z := by
  obtain ⟨hp, hway⟩ := hway
  have hask' : (asked (upTo w.clients (n + 1)))[i]? = some (p, a, v, body) := by
    rw [upTo_succ, asked_append, List.getElem?_append_left (List.getElem?_eq_some_iff.1 hask).1]
    exact hask
  have conn : ∀ c, settled c (.new v body) (callStep p (.new v body) .connected) =
      .active c ⟨none, .write r⟩ := by
    intro c; simp [callStep, CallInner.new, hr, settled]
  by_cases hpoll : ∃ x, w.clients n = .poll i x
  · obtain ⟨x, hx⟩ := hpoll
    have hxf : x ≠ .failed := fun h => hu.network n (h ▸ hx)
    have hnext : (w.sys (n + 1)).calls[i]? =
        some { y with st := polled (w.sys n).pool.isSome (w.sys n).next y.proc x y.st } := by
      rw [sys_succ, hx]
      simp only [Sys.step]
      rw [poll_calls _ i x y hy]
      exact set_get_self hy
    refine ⟨_, hnext, hp, ?_⟩
    simp only
    rcases hway with ⟨inner, hst⟩ | ⟨f, hst, hf⟩ | ⟨c, inner, hst⟩ | ⟨m, hm, hth⟩
    · left
      have := hu.pool n y inner hy hst
      rw [hst, polled, if_pos (by cases h : (w.sys n).pool <;> simp_all)]
      exact ⟨inner, rfl⟩
    · right
      rw [hst, hp]
      cases f with
      | failed => exact absurd rfl hf
      | ready c => exact .inr (.inl ⟨c, _, by rw [polled, conn]⟩)
      | connecting b =>
        cases x with
        | failed => exact absurd rfl hxf
        | connected => exact .inr (.inl ⟨_, _, by simp only [polled, conn]; rfl⟩)
        | _ => exact .inl ⟨_, rfl, hf⟩
    · right; right
      rw [hst, hp]
      simp only [polled]
      have hdur := (wire_reach w.size (upTo w.clients n)).1.active i y inner c hy hst
      have hwire : w.wire (n + 1) c = w.wire n c ++ onConn c (ioStep i c inner.phase x).toList := by
        have hy' : (Sys.run (upTo w.clients n) (.new w.size)).2.calls[i]? = some y := hy
        rw [wire, upTo_succ, wireLog_append, onConn_append, hx]
        simp only [wireLog, List.append_nil, wireOf, hy', hst]
        rfl
      rw [hp] at hdur
      change During i p (w.wire n c) inner.phase at hdur
      obtain ⟨q, ph⟩ := inner
      simp only at hdur hwire
      cases ph with
      | connect => exact hdur.elim
      | write r0 =>
        cases x with
        | failed => exact absurd rfl hxf
        | _ => exact .inl ⟨_, _, rfl⟩
      | readHead =>
        cases x with
        | failed => exact absurd rfl hxf
        | head code hs =>
          by_cases hm : p.method = .head
          · right
            obtain ⟨r0, E, h1, h2, h3⟩ := hdur
            refine ⟨n + 1, Nat.le_refl _, c, E, [.sends i r0, .sent i, .head i code hs], code, hs, [], ?_,
              h2, .head (h1.trans hm), by simp, by simp, .inl ⟨hm, rfl⟩, ?_⟩
            · rw [hwire, h3]
              simp [ioStep, onConn]
            · simp only [callStep, hm, if_true]
              exact settled_decode ..
          · left
            simp only [callStep, hm, if_false, settled]
            exact ⟨_, _, rfl⟩
        | _ => exact .inl ⟨_, _, rfl⟩
      | readBody code hs =>
        cases x with
        | failed => exact absurd rfl hxf
        | body b =>
          right
          obtain ⟨r0, E, h1, h2, h3, h4⟩ := hdur
          refine ⟨n + 1, Nat.le_refl _, c, E, [.sends i r0, .sent i, .head i code hs, .body i b], code, hs,
            b, ?_, h3, .full (by rw [h1]; exact h2), by simp, by simp, .inr ⟨h2, by simp⟩, ?_⟩
          · rw [hwire, h4]
            simp [ioStep, onConn]
          · simp only [callStep]
            exact settled_decode ..
        | _ => exact .inl ⟨_, _, rfl⟩
    · right; right; right
      refine ⟨m, Nat.le_succ_of_le hm, ?_⟩
      have : polled (w.sys n).pool.isSome (w.sys n).next y.proc x y.st = y.st := by
        obtain ⟨c, E, x, code, hs, b, -, -, -, -, -, -, hst⟩ := hth
        rw [hst, endOf]
        cases deResponse p.resTy code hs <;> rfl
      rw [this]
      exact hth
  · obtain ⟨z, g1, g2, g3⟩ := step_changes (w.sys n) (w.clients n) i y hy
    rw [← sys_succ] at g1
    refine ⟨z, g1, g2.trans hp, ?_⟩
    generalize hst : y.st = st at g3 hway
    generalize hst' : z.st = st' at g3
    have hkeep : st = st' → _ := fun e => by
      subst e
      exact show (∃ inner, st = .waiting inner) ∨ (∃ f, st = .replied (.new v body) f ∧ f ≠ .failed) ∨
        (∃ c inner, st = .active c inner) ∨ ∃ m, m ≤ n + 1 ∧ Through w i m p st from
        hway.imp_right fun h => h.imp_right fun h => h.imp_right fun ⟨m, h1, h2⟩ =>
          ⟨m, Nat.le_succ_of_le h1, h2⟩
    generalize he : w.clients n = e at g3
    cases g3 with
    | same => exact hkeep rfl
    | reply =>
      rename_i inner f
      right; left
      obtain ⟨v', b', hq, hin⟩ := (wire_reach w.size (upTo w.clients (n + 1))).2.proc i z g1
      rw [hask'] at hq
      cases hq
      have : inner = .new v body := hin inner (.inr ⟨f, hst'⟩)
      subst this
      refine ⟨f, rfl, fun h0 => ?_⟩
      subst h0
      have := C51_rejected w.size _ i z _ g1 hst'
      have := hu.address (n + 1)
      omega
    | poll => exact absurd ⟨_, he⟩ hpoll
    | dropped => exact absurd he (hu.kept n)
    | late => exact hkeep rfl

end

end Spec.World

end Htrpc
