/-
Cases for the theorems in Verif/Props/RealTime.lean, and calls that are given up (C124).
-/
import Verif.Props.RealTime
import Verif.Props.WorldExamples

set_option linter.unusedSimpArgs false

namespace Htrpc
open Spec Http

namespace RealTimeExamples
open ToyJson ToyMethods HttpExamples SystemExamples WorldExamples
open ServerExamples (readsWhole_append readsWhole_other readsWhole_left)

/-- The first call is dropped when its request is on its way. Then the second one is made. -/
def lateClient : List SysEvent :=
  [.call exCallee exA (exVal "hello world".toList) [1, 2], .handle 0, .poll 0 .connected,
   .poll 0 .written, .dropCall 0, .call exCallee exA (exVal "hello world".toList) [1, 2], .handle 0,
   .poll 1 .connected, .poll 1 .written]

/-- The server gets the request on the second connection first. -/
def lateConn : Conn → List ConnEvent
  | 0 => List.replicate 17 .notReady ++ HttpExamples.exEvents
  | 1 => List.replicate 9 .notReady ++ HttpExamples.exEvents
  | _ => [.connected true]

def lateWorld : World where
  size := 3
  clients := forever lateClient (.handle 0)
  cfg := fun _ => exCfg
  servers := fun c => forever (lateConn c) .input
  phrase := exPhrase
  read := fun _ _ v b w => v = w ∧ b = [1, 2]

section
attribute [local instance] toyFloat toyUrl toyJson toyMethods httpWire
attribute [local irreducible] exBytes

theorem late_client : ∃ q r inner, Sys.run lateClient (.new 3) =
    (r, ⟨some q, [], [⟨exCallee, exA, .dropped⟩, ⟨exCallee, exA, .active 1 inner⟩], 2⟩) := by
  unfold lateClient
  generalize "hello world".toList = tag
  have hr := ex_ser tag [1, 2]
  rw [show (.other 1 : Method) = exCallee.method from rfl, show exEntry = exCallee.entry from rfl] at hr
  simp [Sys.run, Sys.step, Sys.call, Sys.send, Sys.new, Sys.poll, Sys.handle, Sys.dropCall,
    Cmd.event, Pool.step, Pool.handleAcquire, Pool.acquire, Pool.withSize, BTreeMap.firstFrom,
    Sys.reply, Sys.setCall, CallInner.new, hr, Sys.settle, callStep, exA]

theorem late_dropped : ∃ y, (lateWorld.sys 5).calls[0]? = some y ∧ y.st = .dropped ∧
    (lateWorld.sys 5).calls.length = 1 := by
  rw [World.sys, show lateWorld.clients = forever lateClient (.handle 0) from rfl, upTo_forever]
  unfold lateClient
  generalize "hello world".toList = tag
  have hr := ex_ser tag [1, 2]
  rw [show (.other 1 : Method) = exCallee.method from rfl, show exEntry = exCallee.entry from rfl] at hr
  simp [Sys.run, Sys.step, Sys.call, Sys.send, Sys.new, Sys.poll, Sys.handle, Sys.dropCall,
    Cmd.event, Pool.step, Pool.handleAcquire, Pool.acquire, Pool.withSize, BTreeMap.firstFrom,
    Sys.reply, Sys.setCall, CallInner.new, hr, Sys.settle, callStep, exA, lateWorld]

theorem late_wire (r : Request) (hr : serRequest exCallee.method exCallee.entry
      (exVal "hello world".toList) [1, 2] = .ok r) :
    wireLog lateClient (.new 3) = [(0, .sends 0 r), (0, .sent 0), (1, .sends 1 r), (1, .sent 1)] := by
  unfold lateClient
  generalize "hello world".toList = tag at hr
  simp [wireLog, wireOf, ioStep, begins, Sys.step, Sys.call, Sys.send, Sys.new, Sys.poll, Sys.handle,
    Sys.dropCall, Cmd.event, Pool.step, Pool.handleAcquire, Pool.acquire, Pool.withSize,
    BTreeMap.firstFrom, Sys.reply, Sys.setCall, CallInner.new, hr, Sys.settle, callStep, exA]

theorem late_wires (n : Nat) (hn : 9 ≤ n) (c : Conn) :
    lateWorld.wire n c = onConn c [(0, .sends 0 (exRequest "hello world".toList [1, 2])), (0, .sent 0),
      (1, .sends 1 (exRequest "hello world".toList [1, 2])), (1, .sent 1)] := by
  obtain ⟨q, es, inner, h1⟩ := late_client
  rw [World.wire, show lateWorld.clients = forever lateClient (.handle 0) from rfl, upTo_forever,
    List.take_of_length_le (by exact hn), wireLog_append, show lateWorld.size = 3 from rfl, h1,
    late_wire _ ex_serves, (handle_run _ _ rfl).2, List.append_nil]

theorem late_conn_run (c : Conn) : ConnState.run exCfg .new (lateConn c) =
    if c ≤ 1 then (⟨.readHead, .other 1, [], none⟩, connLog exCfg HttpExamples.exEvents)
    else (⟨.readHead, .other 0, [], none⟩, []) := by
  have h0 : ∀ k, ConnState.run exCfg .new (List.replicate k .notReady) = (.new, []) := by
    intro k
    induction k with
    | zero => rfl
    | succ k ih =>
      rw [List.replicate_succ, ConnState.run,
        show ConnState.step exCfg .new .notReady = (.new, []) from rfl]
      simp only [ih]
      rfl
  match c with
  | 0 =>
    rw [if_pos (by decide), lateConn, conn_run_append, h0]
    simp only [List.nil_append]
    rw [HttpExamples.ex_run, HttpExamples.ex_log]
  | 1 =>
    rw [if_pos (by decide), lateConn, conn_run_append, h0]
    simp only [List.nil_append]
    rw [HttpExamples.ex_run, HttpExamples.ex_log]
  | c + 2 => rw [if_neg (Nat.not_le.2 (Nat.le_add_left 2 c))]; rfl

theorem late_log (n : Nat) (c : Conn) : lateWorld.log n c =
    (ConnState.run exCfg .new (upTo (forever (lateConn c) .input) n)).2 := rfl

/-- When all has happened on a connection. -/
theorem late_log_end (n : Nat) (c : Conn) (hn : (lateConn c).length ≤ n) : lateWorld.log n c =
    if c ≤ 1 then connLog exCfg HttpExamples.exEvents else [] := by
  rw [late_log, upTo_forever, List.take_of_length_le hn, conn_run_append, late_conn_run]
  by_cases hc : c ≤ 1
  · rw [if_pos hc, if_pos hc]
    simp only [idle, List.append_nil]
  · rw [if_neg hc, if_neg hc]
    simp only [idle, List.append_nil]

theorem late_log_sub (n : Nat) (c : Conn) :
    lateWorld.log n c <+: connLog exCfg HttpExamples.exEvents := by
  refine (World.log_le (w := lateWorld) (Nat.le_max_left n (lateConn c).length) c).trans ?_
  rw [late_log_end _ _ (Nat.le_max_right _ _)]
  split
  · exact List.prefix_rfl
  · exact List.nil_prefix

theorem arriving_conn' (c : Conn) (k : Nat) : arriving (lateConn c ++ List.replicate k .input) =
    if c ≤ 1 then exBytes else [] := by
  have h0 : arriving (List.replicate k .input) = [] := by
    induction k with
    | zero => rfl
    | succ k ih => rw [List.replicate_succ]; exact ih
  match c with
  | 0 =>
    have : arriving (lateConn 0 ++ List.replicate k .input) =
        exBytes.take 20 ++ (exBytes.drop 20 ++ arriving (List.replicate k .input)) := rfl
    rw [this, h0]
    simp
  | 1 =>
    have : arriving (lateConn 1 ++ List.replicate k .input) =
        exBytes.take 20 ++ (exBytes.drop 20 ++ arriving (List.replicate k .input)) := rfl
    rw [this, h0]
    simp
  | c + 2 => rw [if_neg (Nat.not_le.2 (Nat.le_add_left 2 c))]; exact h0

theorem late_arriving (n : Nat) (c : Conn) : arriving (upTo (lateWorld.servers c) n) <+:
    if c ≤ 1 then exBytes else [] := by
  rw [show lateWorld.servers c = forever (lateConn c) .input from rfl]
  rcases upTo_cases (lateConn c) .input n with ⟨b, hb⟩ | ⟨k, -, hk⟩
  · rw [← arriving_conn' c 0, List.replicate_zero, List.append_nil]
    conv => rhs; rw [hb]
    exact arriving_prefix ..
  · rw [hk, arriving_conn']
    exact List.prefix_refl _

theorem late_arriving_none {n : Nat} (hn : n ≤ 9) (c : Conn) :
    arriving (upTo (lateWorld.servers c) n) = [] := by
  have h9 : arriving (upTo (lateWorld.servers c) 9) = [] := by
    match c with
    | 0 => rfl
    | 1 => rfl
    | c + 2 => rfl
  obtain ⟨b, hb⟩ := upTo_le (lateWorld.servers c) hn
  have := arriving_prefix (upTo (lateWorld.servers c) n) b
  rw [← hb, h9] at this
  exact List.prefix_nil.1 this

theorem late_linked (n : Nat) (c : Conn) :
    Linked (lateWorld.wire n c) (upTo (lateWorld.servers c) n) (lateWorld.log n c) exPhrase := by
  have hph : ∀ s, ∀ b ∈ exPhrase s, ValueByte b :=
    fun _ => show ∀ b ∈ utf8 "Fine".toList, ValueByte b by decide
  have hreq : exBytes = writeRequest (exRequest "hello world".toList [1, 2]) := by
    unfold exBytes; rfl
  refine ⟨?_, ⟨[], [], List.nil_prefix, ?_⟩, hph⟩
  · by_cases hn : n ≤ 9
    · rw [late_arriving_none hn]
      exact List.nil_prefix
    · have harr := late_arriving n c
      rw [late_wires n (by omega) c]
      rw [hreq] at harr
      generalize exRequest "hello world".toList [1, 2] = r at harr
      match c with
      | 0 => simpa [onConn, requestsOn] using harr
      | 1 => simpa [onConn, requestsOn] using harr
      | c + 2 =>
        rw [if_neg (Nat.not_le.2 (Nat.le_add_left 2 c))] at harr
        exact harr.trans List.nil_prefix
  · have hw := late_wires (max n 9) (Nat.le_max_right _ _) c
    have hp := World.wire_le (w := lateWorld) (Nat.le_max_left n 9) c
    rw [hw] at hp
    generalize exRequest "hello world".toList [1, 2] = r at hp
    generalize lateWorld.wire n c = l at hp
    have key : ∀ l : List WireStep, (∀ x ∈ l, ∃ i r, x = .sends i r ∨ x = .sent i) →
        ReadsOff [] [] l [] := by
      intro l hl
      induction l with
      | nil => exact .nil
      | cons x l ih =>
        have ih := ih fun x hx => hl x (List.mem_cons_of_mem _ hx)
        obtain ⟨i, r, rfl | rfl⟩ := hl x List.mem_cons_self
        · exact .sends ih
        · exact .sent ih
    refine key l fun x hx => ?_
    obtain ⟨c', hm⟩ : ∃ c', (c', x) ∈ [((0 : Conn), WireStep.sends 0 r), (0, .sent 0), (1, .sends 1 r),
        (1, .sent 1)] := ⟨c, onConn_mem.1 (hp.subset hx)⟩
    simp only [List.mem_cons, Prod.mk.injEq, List.not_mem_nil, or_false] at hm
    rcases hm with ⟨-, rfl⟩ | ⟨-, rfl⟩ | ⟨-, rfl⟩ | ⟨-, rfl⟩
    · exact ⟨0, r, .inl rfl⟩
    · exact ⟨0, r, .inr rfl⟩
    · exact ⟨1, r, .inl rfl⟩
    · exact ⟨1, r, .inr rfl⟩

theorem late_honest : lateWorld.Honest where
  linked := late_linked
  bodies := by
    intro n c
    have h0 : ReadsWhole exCfg (fun _ v b w => v = w ∧ b = [1, 2]) .new (lateConn c) := by
      match c with
      | 0 => exact readsWhole_append (readsWhole_other (by simp)) ex_served.2.2.1
      | 1 => exact readsWhole_append (readsWhole_other (by simp)) ex_served.2.2.1
      | c + 2 => exact readsWhole_other (by simp [lateConn])
    show ReadsWhole exCfg _ .new (upTo (forever (lateConn c) .input) n)
    rcases upTo_cases (lateConn c) .input n with ⟨b, hb⟩ | ⟨k, -, hk⟩
    · rw [hb] at h0
      exact readsWhole_left h0
    · rw [hk]
      refine readsWhole_append h0 (readsWhole_other fun e he w rest h => ?_)
      rw [List.eq_of_mem_replicate he] at h
      cases h
  safe := by
    intro n c resp body hmem r hr
    obtain ⟨-, -, -, -, h5, h6⟩ := ex_served
    have hs := C67_safe_response _ _ _ _ h5 h6 [4, 5] ⟨.ok, [contentLength [4, 5]], [4, 5]⟩ rfl
    have hmem := returned_mem.2 ((late_log_sub n c).subset (returned_mem.1 hmem))
    rw [ex_log] at hmem
    simp only [returned, List.filterMap, List.mem_singleton, Prod.mk.injEq] at hmem
    obtain ⟨rfl, rfl⟩ := hmem
    cases hr
    exact hs

theorem late_expressible : lateWorld.Expressible fun _ => (exInvocation []).types := by
  intro n i p a v b r h1 h2
  have hall : asked (upTo lateWorld.clients n) <+: List.replicate 2
      (exCallee, exA, exVal "hello world".toList, [1, 2]) := by
    rw [show lateWorld.clients = forever lateClient (.handle 0) from rfl]
    have h : asked lateClient = List.replicate 2 (exCallee, exA, exVal "hello world".toList, [1, 2]) := rfl
    rcases upTo_cases lateClient (.handle 0) n with ⟨b, hb⟩ | ⟨k, -, hk⟩
    · rw [← h]
      conv => rhs; rw [hb, asked_append]
      exact List.prefix_append ..
    · have h0 : asked (List.replicate k (.handle 0)) = [] := by
        clear hk
        induction k with
        | zero => rfl
        | succ k ih => rw [List.replicate_succ]; exact ih
      rw [hk, asked_append, h0, List.append_nil, h]
      exact List.prefix_rfl
  have h3 := List.eq_of_mem_replicate (hall.subset (List.mem_of_getElem? h1))
  cases h3
  rw [ex_serves] at h2
  cases h2
  exact ⟨_, rfl, ex_issues _⟩

/-- A handler is called on a connection of this world when everything has happened there. -/
theorem late_invoked (c : Conn) (hc : c ≤ 1) (n : Nat) (hn : (lateConn c).length ≤ n) (h9 : 9 ≤ n) :
    ∃ x, lateWorld.Invoked n c x := by
  have h1 := late_wires n h9 c
  have h2 := late_log_end n c hn
  rw [if_pos hc, ex_log] at h2
  generalize exRequest "hello world".toList [1, 2] = r at h1 h2
  refine ⟨(exService, exVal "hello world".toList, exVal "hello world".toList), c, 0, r, r.asRead.1,
    [.invoked exService (exVal "hello world".toList) (exVal "hello world".toList),
      .returned (.unitVariant "Ok".toList) [4, 5],
      .answer ⟨.ok, [contentLength [4, 5]], [4, 5]⟩, .written], ?_, ?_, ?_⟩
  · rw [h1]
    match c, hc with
    | 0, _ => rfl
    | 1, _ => rfl
  · rw [h2]
    rfl
  · exact List.mem_singleton.2 rfl

theorem late_precedes : lateWorld.Precedes 1 0 := by
  refine ⟨17, late_invoked 1 (by decide) 17 (by decide) (by decide), ?_⟩
  rintro x ⟨c, k, r, h, l, h1, h2, h3⟩
  have hc : c = 0 := by
    have hm := List.mem_of_getElem? h1
    rw [late_wires 17 (by decide) c] at hm
    have := onConn_mem.1 (requestsOn_mem.1 hm)
    simp at this
    exact this.1
  subst hc
  have : lateWorld.log 17 0 = [] := rfl
  rw [this] at h2
  cases h2

/-- **C124.** Only for calls that complete: a call that was given up may have its effect later, after that
of a call that was made afterwards. -/
theorem C124_late : ∃ (w : World) (types : Nat → List (Str × Ty)), w.Honest ∧ w.Expressible types ∧
    ∃ n, (∃ y, (w.sys n).calls[0]? = some y ∧ y.st = .dropped) ∧ ¬ w.Made n 1 ∧ w.Precedes 1 0 ∧
      ∃ m x, w.Invoked m 0 x := by
  obtain ⟨y, hy, hst, hlen⟩ := late_dropped
  exact ⟨lateWorld, _, late_honest, late_expressible, 5, ⟨y, hy, hst⟩, by rw [World.Made, hlen]; omega,
    late_precedes, 25, late_invoked 0 (by decide) 25 (by decide) (by decide)⟩

theorem ex_honest : exWorld.Honest := ⟨ex_works.linked, ex_works.bodies, ex_works.safe⟩

theorem ex_completed : exWorld.Completed 15 0 exOk [4, 5] ∧ ¬ exWorld.Made 15 1 := by
  obtain ⟨q, es, h, -⟩ := client_run
  have := (clients_run 15 (Nat.le_refl _)).1
  rw [h] at this
  have h2 : (exWorld.sys 15).calls = [⟨exCallee, exA, .done exOk [4, 5]⟩] := by
    rw [World.sys, show exWorld.size = 3 from rfl, this]
  refine ⟨⟨_, by rw [h2]; rfl, rfl⟩, ?_⟩
  rw [World.Made, h2]
  exact Nat.lt_irrefl 1

theorem ex_invoked : exWorld.Invoked 12 0
      (exService, exVal "hello world".toList, exVal "hello world".toList) ∧
    exWorld.Returned 12 0 (.unitVariant "Ok".toList, [4, 5]) := by
  have h1 := (client_wire _ ex_serves).2.2.1
  have h3 := wire_at 12 (by omega)
  rw [h1] at h3
  have h2 := log_settled (Nat.le_refl 12)
  rw [ex_log] at h2
  generalize exRequest "hello world".toList [1, 2] = r at h1 h2 h3
  refine ⟨⟨0, 0, r, r.asRead.1, [.invoked exService (exVal "hello world".toList)
      (exVal "hello world".toList), .returned (.unitVariant "Ok".toList) [4, 5],
      .answer ⟨.ok, [contentLength [4, 5]], [4, 5]⟩, .written], ?_, ?_, List.mem_singleton.2 rfl⟩,
    ⟨0, 0, r, r.asRead.1, [.invoked exService (exVal "hello world".toList)
      (exVal "hello world".toList), .returned (.unitVariant "Ok".toList) [4, 5],
      .answer ⟨.ok, [contentLength [4, 5]], [4, 5]⟩, .written], ?_, ?_, List.mem_singleton.2 rfl⟩⟩
  · rw [h3]; rfl
  · rw [h2]; rfl
  · rw [h3]; rfl
  · rw [h2]; rfl

/-- `C124_moment` and `C124_return`. -/
example : (∃ t, exWorld.Made t 0 ∧ ∀ m x, exWorld.Invoked m 0 x ↔
      t < m ∧ x = (exService, exVal "hello world".toList, exVal "hello world".toList)) ∧
    ∃ t, (∃ x, exWorld.Invoked (t + 1) 0 x) ∧ ∀ m y, exWorld.Returned m 0 y ↔
      t < m ∧ y = (.unitVariant "Ok".toList, [4, 5]) :=
  ⟨C124_moment _ _ _ ex_invoked.1, C124_return _ _ _ ex_invoked.2⟩

/-- `C124_within`, `C124_real_time`: the call has completed, and no other was made. -/
example : (∃ x, exWorld.Invoked 15 0 x) ∧ exWorld.Precedes 0 1 := by
  obtain ⟨⟨y, hy, hst⟩, h2⟩ := ex_completed
  exact ⟨⟨_, (C124_within ex_honest ex_expressible 15 12 0 y _ _ _ hy hst ex_invoked.1).1⟩,
    C124_real_time ex_honest ex_expressible 15 0 1 _ _ ⟨y, hy, hst⟩ h2 ⟨12, _, ex_invoked.1⟩⟩

theorem ex_only {n i : Nat} (h : exWorld.Made n i) : i = 0 := by
  have h := made_le (Nat.le_max_left n 15) h
  obtain ⟨q, es, h1, -⟩ := client_run
  have := (clients_run (max n 15) (Nat.le_max_right _ _)).1
  rw [h1] at this
  rw [World.Made, World.sys, show exWorld.size = 3 from rfl, this] at h
  exact Nat.lt_one_iff.1 h

/-- The handlers of this world are an object that counts the operations. -/
theorem ex_atomic : ∃ acts st, World.Atomic (fun _ : Unit => exWorld)
    (fun (s : Nat) _ => (s + 1, (.unitVariant "Ok".toList, [4, 5]))) acts st := by
  obtain ⟨u, ⟨x, hx⟩, hu⟩ := C124_return _ _ _ ex_invoked.2
  refine ⟨fun t => if t = u then some ((), 0) else none, fun t => if t ≤ u then 0 else 1, ?_, ?_, ?_, ?_⟩
  · intro t t' o h h'
    split at h <;> split at h' <;> simp_all
  · intro t h
    split at h
    · cases h
    · next hne =>
      by_cases hle : t ≤ u
      · simp only [if_pos hle, if_pos (show t + 1 ≤ u by omega)]
      · simp only [if_neg hle, if_neg (show ¬ t + 1 ≤ u by omega)]
  · intro t p i h
    split at h
    · next he =>
      cases h
      subst he
      exact ⟨x, hx, by simp⟩
    · cases h
  · intro n p i y hy
    have hi : i = 0 := by
      obtain ⟨t, ⟨x', hx'⟩, -⟩ := C124_return _ _ _ hy
      exact ex_only (invoked_made hx')
    subst hi
    obtain ⟨h1, rfl⟩ := (hu n y).1 hy
    exact ⟨u, x, h1, if_pos rfl, hx, rfl⟩

/-- `C124_linearizable`: the call takes effect once, while it is in progress. -/
example : ∃ acts : Nat → Option (Unit × Nat), ∃ t, (∀ t', acts t' = some ((), 0) ↔ t' = t) ∧
    exWorld.Made t 0 ∧ t < 15 := by
  obtain ⟨⟨y, hy, hst⟩, -⟩ := ex_completed
  obtain ⟨acts, st, ha⟩ := ex_atomic
  obtain ⟨t, h1, h2, h3, -⟩ := C124_linearizable _ _ acts st ha (fun _ => ex_honest)
    (fun _ => ex_expressible) () 15 12 0 y _ _ _ hy hst ex_invoked.1
  exact ⟨acts, t, h1, h2, h3⟩

/-- `C124_across`: a call of another pool that is made later. -/
example (w' : World) (j : Nat) (hj : ¬ w'.Made 15 j) (x : Service × Val × Val) : ¬ w'.Invoked 15 j x :=
  (C124_across w' ex_honest ex_expressible 15 0 j _ _ ex_completed.1 hj ⟨12, _, ex_invoked.1⟩).2 x

/-- `C124_order`: the other way round it is not. -/
example : ¬ lateWorld.Precedes 0 1 := (C124_order 1 0 1).2.1 late_precedes

end

end RealTimeExamples

end Htrpc
