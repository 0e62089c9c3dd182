/-
A case that meets the hypotheses of the theorems in Verif/Props/World.lean.
-/
import Verif.Props.World
import Verif.Props.SystemExamples
import Verif.Props.LiveExamples

set_option linter.unusedSimpArgs false

namespace Htrpc
open Spec Http

namespace WorldExamples
open ToyJson ToyMethods HttpExamples SystemExamples
open ServerExamples (readsWhole_append readsWhole_other readsWhole_left smooth_of)

/-- Some events, and then always the same. -/
def forever {α : Type} (l : List α) (d : α) (n : Nat) : α := l.getD n d

theorem upTo_forever {α : Type} (l : List α) (d : α) (n : Nat) :
    upTo (forever l d) n = l.take n ++ List.replicate (n - l.length) d := by
  induction n with
  | zero => simp [upTo]
  | succ n ih =>
    rw [upTo_succ, ih, forever]
    by_cases h : n < l.length
    · have e1 : n - l.length = 0 := by omega
      have e2 : n + 1 - l.length = 0 := by omega
      rw [e1, e2, List.take_add_one, List.getD_eq_getElem?_getD, List.getElem?_eq_getElem h]
      simp
    · have e1 : n + 1 - l.length = n - l.length + 1 := by omega
      rw [e1, List.take_of_length_le (by omega), List.take_of_length_le (by omega),
        List.getD_eq_getElem?_getD, List.getElem?_eq_none (by omega), List.replicate_succ',
        List.append_assoc]
      rfl

theorem upTo_cases {α : Type} (l : List α) (d : α) (n : Nat) :
    (∃ b, l = upTo (forever l d) n ++ b) ∨
      ∃ k, n = l.length + k ∧ upTo (forever l d) n = l ++ List.replicate k d := by
  rw [upTo_forever]
  by_cases h : n ≤ l.length
  · left
    refine ⟨l.drop n, ?_⟩
    rw [show n - l.length = 0 by omega]
    simp
  · right
    refine ⟨n - l.length, by omega, ?_⟩
    rw [List.take_of_length_le (by omega)]

/-- A call whose response is read when the server has written it. -/
def exClient : List SysEvent :=
  [.call exCallee exA (exVal "hello world".toList) [1, 2], .handle 0, .poll 0 .connected,
   .poll 0 .written, .poll 0 .notReady, .poll 0 .notReady, .poll 0 .notReady, .poll 0 .notReady,
   .poll 0 .notReady, .poll 0 .notReady, .poll 0 .notReady, .poll 0 .notReady,
   .poll 0 (.head 200 [contentLength [4, 5]]), .poll 0 (.body [4, 5]), .handle 0]

/-- The server at the end of the first connection gets the request, in two pieces, and answers. -/
def exConn : Conn → List ConnEvent
  | 0 => [.notReady, .notReady, .notReady, .notReady] ++ HttpExamples.exEvents
  | _ => [.connected true]

def exWorld : World where
  size := 3
  clients := forever exClient (.handle 0)
  cfg := fun _ => exCfg
  servers := fun c => forever (exConn c) .input
  phrase := exPhrase
  read := fun _ _ v b w => v = w ∧ b = [1, 2]

section
attribute [local instance] toyFloat toyUrl toyJson toyMethods httpWire
attribute [local irreducible] exBytes

theorem client_run : ∃ q es, Sys.run exClient (.new 3) =
    (es, ⟨some q, [], [⟨exCallee, exA, .done exOk [4, 5]⟩], 1⟩) ∧ refusedTo exA es = 0 := by
  unfold exClient
  generalize "hello world".toList = tag
  have hr := ex_ser tag [1, 2]
  have hd : deResponse exCallee.resTy 200 [contentLength [4, 5]] = .ok exOk := rfl
  have hm : exCallee.method ≠ .head := by decide
  rw [show (.other 1 : Method) = exCallee.method from rfl, show exEntry = exCallee.entry from rfl] at hr
  simp [Sys.run, Sys.step, Sys.call, Sys.send, Sys.new, Sys.poll, Sys.handle,
    Cmd.event, Pool.step, Pool.handleAcquire, Pool.acquire, Pool.withSize, BTreeMap.firstFrom,
    Sys.reply, Sys.setCall, CallInner.new, hr, Sys.settle, callStep, callDecode, hd, hm, Pool.release,
    BTreeMap.insert, BTreeMap.remove, Pool.dropExceeded, ConnId.lt, natLt, exA, refusedTo]

theorem client_wire (r : Request) (hr : serRequest exCallee.method exCallee.entry
      (exVal "hello world".toList) [1, 2] = .ok r) :
    wireLog (exClient.take 2) (.new 3) = [] ∧
    wireLog (exClient.take 3) (.new 3) = [(0, .sends 0 r)] ∧
    wireLog (exClient.take 12) (.new 3) = [(0, .sends 0 r), (0, .sent 0)] ∧
    wireLog (exClient.take 13) (.new 3) = [(0, .sends 0 r), (0, .sent 0),
      (0, .head 0 200 [contentLength [4, 5]])] ∧
    wireLog exClient (.new 3) = [(0, .sends 0 r), (0, .sent 0),
      (0, .head 0 200 [contentLength [4, 5]]), (0, .body 0 [4, 5])] := by
  unfold exClient
  generalize "hello world".toList = tag at hr
  have hd : deResponse exCallee.resTy 200 [contentLength [4, 5]] = .ok exOk := rfl
  have hm : exCallee.method ≠ .head := by decide
  refine ⟨?_, ?_, ?_, ?_, ?_⟩ <;>
  simp [wireLog, wireOf, ioStep, begins, Sys.step, Sys.call, Sys.send, Sys.new, Sys.poll, Sys.handle,
    Cmd.event, Pool.step, Pool.handleAcquire, Pool.acquire, Pool.withSize, BTreeMap.firstFrom,
    Sys.reply, Sys.setCall, CallInner.new, hr, Sys.settle, callStep, callDecode, hd, hm, Pool.release,
    BTreeMap.insert, BTreeMap.remove, Pool.dropExceeded, ConnId.lt, natLt, exA]

theorem server_run : ConnState.run exCfg .new (exConn 0) =
    (⟨.readHead, .other 1, [], none⟩, connLog exCfg HttpExamples.exEvents) := by
  have h0 : ConnState.run exCfg .new [.notReady, .notReady, .notReady, .notReady] = (.new, []) := rfl
  rw [exConn, conn_run_append, h0]
  simp only [List.nil_append]
  rw [HttpExamples.ex_run, HttpExamples.ex_log]

theorem other_run (c : Conn) (h : c ≠ 0) : ConnState.run exCfg .new (exConn c) =
    (⟨.readHead, .other 0, [], none⟩, []) := by
  match c, h with
  | c + 1, _ => rfl

theorem idle (m : Method) (k : Nat) : ConnState.run exCfg ⟨.readHead, m, [], none⟩
    (List.replicate k .input) = (⟨.readHead, m, [], none⟩, []) := by
  induction k with
  | zero => rfl
  | succ k ih =>
    rw [List.replicate_succ, ConnState.run]
    have : ConnState.step exCfg ⟨.readHead, m, [], none⟩ .input = (⟨.readHead, m, [], none⟩, []) := rfl
    rw [this]
    simp only [ih]
    rfl

/-- The state and the history of a connection of the server after its events. -/
theorem settled_run (c : Conn) : ∃ m, ∀ k,
    ConnState.run exCfg .new (exConn c ++ List.replicate k .input) =
      (⟨.readHead, m, [], none⟩, (ConnState.run exCfg .new (exConn c)).2) := by
  have key : ∀ m l, ConnState.run exCfg .new (exConn c) = (⟨.readHead, m, [], none⟩, l) → ∀ k,
      ConnState.run exCfg .new (exConn c ++ List.replicate k .input) =
        (⟨.readHead, m, [], none⟩, (ConnState.run exCfg .new (exConn c)).2) := by
    intro m l h k
    rw [conn_run_append, h]
    simp only [idle, List.append_nil]
  by_cases h : c = 0
  · subst h
    exact ⟨_, key _ _ server_run⟩
  · exact ⟨_, key _ _ (other_run c h)⟩

theorem log_settled {n : Nat} (hn : 12 ≤ n) : exWorld.log n 0 = connLog exCfg HttpExamples.exEvents := by
  have : exWorld.log n 0 = (ConnState.run exCfg .new (upTo (forever (exConn 0) .input) n)).2 := rfl
  rw [this, upTo_forever, List.take_of_length_le (by exact hn)]
  obtain ⟨m, h⟩ := settled_run 0
  rw [h, server_run]

theorem log_sub (n : Nat) (c : Conn) : exWorld.log n c <+: connLog exCfg HttpExamples.exEvents := by
  have : exWorld.log n c = (ConnState.run exCfg .new (upTo (forever (exConn c) .input) n)).2 := rfl
  obtain ⟨m, h⟩ := settled_run c
  have hsub : (ConnState.run exCfg .new (exConn c)).2 <+: connLog exCfg HttpExamples.exEvents := by
    by_cases hc : c = 0
    · rw [hc, server_run]; exact List.prefix_refl _
    · rw [other_run c hc]; exact List.nil_prefix
  rw [this]
  rcases upTo_cases (exConn c) .input n with ⟨b, hb⟩ | ⟨k, -, hk⟩
  · refine List.IsPrefix.trans ?_ hsub
    conv => rhs; rw [hb, conn_run_append]
    exact List.prefix_append ..
  · rw [hk, h]
    exact hsub

theorem arriving_conn (c : Conn) (k : Nat) : arriving (exConn c ++ List.replicate k .input) =
    if c = 0 then exBytes else [] := by
  have h0 : arriving (List.replicate k .input) = [] := by
    induction k with
    | zero => rfl
    | succ k ih => rw [List.replicate_succ]; exact ih
  match c with
  | 0 =>
    have : arriving (exConn 0 ++ List.replicate k .input) =
        exBytes.take 20 ++ (exBytes.drop 20 ++ arriving (List.replicate k .input)) := rfl
    rw [this, h0]
    simp
  | c + 1 => exact h0

theorem arriving_sub (n : Nat) (c : Conn) : arriving (upTo (exWorld.servers c) n) <+:
    if c = 0 then exBytes else [] := by
  rw [show exWorld.servers c = forever (exConn c) .input from rfl]
  rcases upTo_cases (exConn c) .input n with ⟨b, hb⟩ | ⟨k, -, hk⟩
  · rw [← arriving_conn c 0, List.replicate_zero, List.append_nil]
    conv => rhs; rw [hb]
    exact arriving_prefix ..
  · rw [hk, arriving_conn]
    exact List.prefix_refl _

theorem arriving_none {n : Nat} (hn : n ≤ 2) (c : Conn) :
    arriving (upTo (exWorld.servers c) n) = [] := by
  match c, n, hn with
  | 0, 0, _ => rfl
  | 0, 1, _ => rfl
  | 0, 2, _ => rfl
  | c + 1, 0, _ => rfl
  | c + 1, 1, _ => rfl
  | c + 1, 2, _ => rfl

theorem handle_run (k : Nat) (s : Sys) (h : s.queue = []) :
    Sys.run (List.replicate k (.handle 0)) s = ([], s) ∧
      wireLog (List.replicate k (.handle 0)) s = [] := by
  have h1 : s.step (.handle 0) = ([], s) := by
    simp only [Sys.step, Sys.handle, h]
    cases s.pool <;> rfl
  induction k with
  | zero => exact ⟨rfl, rfl⟩
  | succ k ih =>
    rw [List.replicate_succ, Sys.run, wireLog, h1]
    simp [ih, wireOf]

/-- What has happened after the events of the clients. -/
theorem clients_run (n : Nat) (hn : 15 ≤ n) :
    Sys.run (upTo exWorld.clients n) (.new 3) = Sys.run exClient (.new 3) ∧
    wireLog (upTo exWorld.clients n) (.new 3) = wireLog exClient (.new 3) := by
  obtain ⟨q, es, h1, -⟩ := client_run
  rw [show exWorld.clients = forever exClient (.handle 0) from rfl, upTo_forever,
    List.take_of_length_le (by exact hn), sys_run_append, wireLog_append, h1]
  obtain ⟨h2, h3⟩ := handle_run (n - exClient.length) ⟨some q, [], [⟨exCallee, exA, .done exOk [4, 5]⟩], 1⟩
    rfl
  rw [h2, h3]
  simp

theorem clients_take {n : Nat} (hn : n ≤ 15) : upTo exWorld.clients n = exClient.take n := by
  rw [show exWorld.clients = forever exClient (.handle 0) from rfl, upTo_forever,
    show n - exClient.length = 0 from Nat.sub_eq_zero_of_le hn]
  simp

theorem ex_serves : serRequest exCallee.method exCallee.entry (exVal "hello world".toList) [1, 2] =
    .ok (exRequest "hello world".toList [1, 2]) := ex_ser _ _

theorem wire_other (n : Nat) (c : Conn) (hc : c ≠ 0) : exWorld.wire n c = [] := by
  have hw := (client_wire _ ex_serves).2.2.2.2
  have h1 : exWorld.wire (max n 15) c = [] := by
    rw [World.wire, show exWorld.size = 3 from rfl, (clients_run _ (Nat.le_max_right _ _)).2, hw]
    simp [onConn, Ne.symm hc]
  have h2 := World.wire_le (w := exWorld) (Nat.le_max_left n 15) c
  rw [h1] at h2
  exact List.prefix_nil.1 h2

theorem wire_at (n : Nat) (hn : n ≤ 15) : exWorld.wire n 0 =
    onConn 0 (wireLog (exClient.take n) (.new 3)) := by
  rw [World.wire, clients_take hn]
  rfl

/-- What goes over the first connection. -/
theorem wire_cases (n : Nat) : letI r := exRequest "hello world".toList [1, 2]
    (n ≤ 2 ∧ exWorld.wire n 0 = []) ∨
    (n ≤ 12 ∧ (exWorld.wire n 0 = [.sends 0 r] ∨ exWorld.wire n 0 = [.sends 0 r, .sent 0])) ∨
    (13 ≤ n ∧ (exWorld.wire n 0 = [.sends 0 r, .sent 0, .head 0 200 [contentLength [4, 5]]] ∨
      exWorld.wire n 0 = [.sends 0 r, .sent 0, .head 0 200 [contentLength [4, 5]], .body 0 [4, 5]])) := by
  generalize hr : exRequest "hello world".toList [1, 2] = r
  obtain ⟨w2, w3, w12, w13, w15⟩ := client_wire r (by rw [← hr]; exact ex_serves)
  have e2 := wire_at 2 (by omega)
  have e3 := wire_at 3 (by omega)
  have e12 := wire_at 12 (by omega)
  have e13 := wire_at 13 (by omega)
  rw [w2] at e2
  rw [w3] at e3
  rw [w12] at e12
  rw [w13] at e13
  simp only [onConn, List.filterMap, if_true] at e2 e3 e12 e13
  by_cases h2 : n ≤ 2
  · left
    have := World.wire_le (w := exWorld) h2 0
    rw [e2] at this
    exact ⟨h2, List.prefix_nil.1 this⟩
  · right
    by_cases h12 : n ≤ 12
    · left
      refine ⟨h12, ?_⟩
      obtain ⟨a, ha⟩ := World.wire_le (w := exWorld) (show 3 ≤ n by omega) 0
      obtain ⟨b, hb⟩ := World.wire_le (w := exWorld) h12 0
      rw [e3] at ha
      rw [e12, ← ha] at hb
      rw [← ha]
      cases a with
      | nil => exact .inl rfl
      | cons x a =>
        simp only [List.cons_append, List.nil_append, List.cons.injEq, true_and] at hb
        obtain ⟨rfl, h⟩ := hb
        obtain ⟨rfl, -⟩ := List.append_eq_nil_iff.1 h
        exact .inr rfl
    · right
      refine ⟨by omega, ?_⟩
      obtain ⟨a, ha⟩ := World.wire_le (w := exWorld) (show 13 ≤ n by omega) 0
      obtain ⟨b, hb⟩ := World.wire_le (w := exWorld) (Nat.le_max_left n 15) 0
      have e15 : exWorld.wire (max n 15) 0 = [.sends 0 r, .sent 0, .head 0 200 [contentLength [4, 5]],
          .body 0 [4, 5]] := by
        rw [World.wire, show exWorld.size = 3 from rfl, (clients_run _ (Nat.le_max_right _ _)).2, w15]
        simp [onConn]
      rw [e13] at ha
      rw [e15, ← ha] at hb
      rw [← ha]
      cases a with
      | nil => exact .inl rfl
      | cons x a =>
        simp only [List.cons_append, List.nil_append, List.cons.injEq, true_and] at hb
        obtain ⟨rfl, h⟩ := hb
        obtain ⟨rfl, -⟩ := List.append_eq_nil_iff.1 h
        exact .inr rfl

theorem ex_linked (n : Nat) (c : Conn) :
    Linked (exWorld.wire n c) (upTo (exWorld.servers c) n) (exWorld.log n c) exPhrase := by
  have hph : ∀ s, ∀ b ∈ exPhrase s, ValueByte b :=
    fun _ => show ∀ b ∈ utf8 "Fine".toList, ValueByte b by decide
  by_cases hc : c = 0
  · subst hc
    have harr := arriving_sub n 0
    rw [if_pos rfl] at harr
    have hreq : exBytes = writeRequest (exRequest "hello world".toList [1, 2]) := by
      unfold exBytes; rfl
    have hwire := wire_cases n
    generalize exRequest "hello world".toList [1, 2] = r at hwire hreq
    rw [hreq] at harr
    rcases hwire with ⟨hn, h⟩ | ⟨-, h⟩ | ⟨hn, h⟩
    · rw [h]
      refine ⟨?_, ⟨[], [], List.nil_prefix, .nil⟩, hph⟩
      rw [arriving_none hn]
      exact List.nil_prefix
    · rcases h with h | h <;> rw [h] <;> refine ⟨by simpa [requestsOn] using harr, ⟨[], [], List.nil_prefix, ?_⟩, hph⟩
      · exact .sends .nil
      · exact .sends (.sent .nil)
    · obtain ⟨-, -, -, -, h5, h6⟩ := ex_served
      have hs := C67_safe_response _ _ _ _ h5 h6 [4, 5] ⟨.ok, [contentLength [4, 5]], [4, 5]⟩ rfl
      obtain ⟨k1, f, k2, k3⟩ := C67_response_arrives_partial exOk [4, 5]
        ⟨.ok, [contentLength [4, 5]], [4, 5]⟩ rfl hs.1 hs.2 (exPhrase .ok) (hph _) ⟨.other 1, [], []⟩
      have hon : onWire ⟨.other 1, [], []⟩ ⟨.ok, [contentLength [4, 5]], [4, 5]⟩ =
          ⟨.ok, [contentLength [4, 5]], [4, 5]⟩ := rfl
      rw [hon] at k1
      have k1 := k1 []
      have k3 := k3 []
      rw [if_neg (by decide)] at k1
      generalize hbytes : writeResponse (exPhrase .ok) ⟨.ok, [contentLength [4, 5]], [4, 5]⟩ = d at k1
      rw [List.append_nil] at k1
      have hd : d <+: Spec.written exPhrase (answers (exWorld.log n 0)) := by
        rw [log_settled (by omega), ex_log, Spec.written]
        simp [answers, hbytes]
      rcases h with h | h <;> rw [h]
      · exact ⟨by simpa [requestsOn] using harr, ⟨d, _, hd, .sends (.sent (.head k1 .nil))⟩, hph⟩
      · exact ⟨by simpa [requestsOn] using harr, ⟨d, _, hd, .sends (.sent (.head k1 (.body k2 k3 .nil)))⟩, hph⟩
  · rw [wire_other n c hc]
    have harr := arriving_sub n c
    rw [if_neg hc] at harr
    exact ⟨by simpa [requestsOn] using harr, ⟨[], [], List.nil_prefix, .nil⟩, hph⟩

theorem ex_works : exWorld.Works where
  linked := ex_linked
  delivered := by
    intro n c i hl
    refine ⟨12, ?_⟩
    have hreq : exBytes = writeRequest (exRequest "hello world".toList [1, 2]) := by
      unfold exBytes; rfl
    by_cases hc : c = 0
    · subst hc
      have harr : arriving (upTo (exWorld.servers 0) 12) = exBytes := by
        rw [show exWorld.servers 0 = forever (exConn 0) .input from rfl, upTo_forever,
          List.take_of_length_le (by exact Nat.le_refl 12), arriving_conn, if_pos rfl]
      rw [harr, hreq]
      have hwire := wire_cases n
      generalize exRequest "hello world".toList [1, 2] = r at hwire
      rcases hwire with ⟨hn, h⟩ | ⟨-, h | h⟩ | ⟨hn, h | h⟩ <;> rw [h] <;> simp [requestsOn]
    · rw [wire_other n c hc] at hl
      cases hl
  bodies := by
    intro n c
    have h0 : ReadsWhole exCfg (fun _ v b w => v = w ∧ b = [1, 2]) .new (exConn c) := by
      match c with
      | 0 => exact readsWhole_append (readsWhole_other (by simp)) ex_served.2.2.1
      | c + 1 => exact readsWhole_other (by simp [exConn])
    show ReadsWhole exCfg _ .new (upTo (forever (exConn c) .input) n)
    rcases upTo_cases (exConn c) .input n with ⟨b, hb⟩ | ⟨k, -, hk⟩
    · rw [hb] at h0
      exact readsWhole_left h0
    · rw [hk]
      refine readsWhole_append h0 (readsWhole_other fun e he w rest h => ?_)
      rw [List.eq_of_mem_replicate he] at h
      cases h
  smooth := by
    intro n c
    refine smooth_of fun e he => ?_
    rw [upTo] at he
    obtain ⟨i, -, rfl⟩ := List.mem_map.1 he
    have h : exWorld.servers c i ∈ exConn c ∨ exWorld.servers c i = .input := by
      rw [show exWorld.servers c = forever (exConn c) .input from rfl, forever,
        List.getD_eq_getElem?_getD]
      cases hi : (exConn c)[i]? with
      | none => exact .inr rfl
      | some e => exact .inl (List.mem_of_getElem? hi)
    rcases h with h | h
    · generalize exWorld.servers c i = e at h
      match c with
      | 0 =>
        simp only [exConn, HttpExamples.exEvents, List.cons_append, List.nil_append, List.mem_cons,
          List.not_mem_nil, or_false] at h
        rcases h with h | h | h | h | h | h | h | h | h | h | h | h <;> rw [h] <;>
          refine ⟨nofun, nofun, nofun, nofun, fun v body hv => ?_⟩ <;> cases hv
        exact ⟨_, rfl⟩
      | c + 1 =>
        rw [show e = .connected true from List.mem_singleton.1 h]
        exact ⟨nofun, nofun, nofun, nofun, nofun⟩
    · rw [h]
      exact ⟨nofun, nofun, nofun, nofun, nofun⟩
  safe := by
    intro n c resp body hmem r hr
    obtain ⟨-, -, -, -, h5, h6⟩ := ex_served
    have hs := C67_safe_response _ _ _ _ h5 h6 [4, 5] ⟨.ok, [contentLength [4, 5]], [4, 5]⟩ rfl
    have hmem := returned_mem.2 ((log_sub n c).subset (returned_mem.1 hmem))
    rw [ex_log] at hmem
    simp only [returned, List.filterMap, List.mem_singleton, Prod.mk.injEq] at hmem
    obtain ⟨rfl, rfl⟩ := hmem
    cases hr
    exact hs

theorem ex_fair : exWorld.Fair where
  pool := fun n => ⟨max n 15, Nat.le_max_left _ _, .inl ⟨0, by
    show forever exClient (.handle 0) _ = _
    rw [forever, List.getD_eq_getElem?_getD, List.getElem?_eq_none (by exact Nat.le_max_right _ _)]
    rfl⟩⟩
  calls := by
    intro n i _
    refine ⟨max n 15, Nat.le_max_left _ _, .inr ?_⟩
    obtain ⟨q, es, h1, -⟩ := client_run
    have h2 : (exWorld.sys (max n 15)).calls = [⟨exCallee, exA, .done exOk [4, 5]⟩] := by
      rw [World.sys, show exWorld.size = 3 from rfl, (clients_run _ (Nat.le_max_right _ _)).1, h1]
    rintro ⟨r, ho⟩
    have hst : ∀ y, (exWorld.sys (max n 15)).calls[i]? = some y → y.st = .done exOk [4, 5] := by
      intro y hy
      rw [h2] at hy
      match i with
      | 0 => cases hy; rfl
      | i + 1 => cases hy
    cases ho with
    | gone h3 h4 => rw [hst _ h3] at h4; cases h4
    | given h3 h4 => rw [hst _ h3] at h4; cases h4
    | suspended h3 h4 => rw [hst _ h3] at h4; cases h4
    | connected h3 h4 => rw [hst _ h3] at h4; cases h4
    | written h3 h4 => rw [hst _ h3] at h4; cases h4
    | head h3 h4 => rw [hst _ h3] at h4; cases h4
    | body h3 h4 => rw [hst _ h3] at h4; cases h4
  servers := by
    intro c n _
    refine ⟨max n 12, Nat.le_max_left _ _, .inl ?_⟩
    have hlen : (exConn c).length ≤ max n 12 := by
      match c with
      | 0 => exact Nat.le_max_right _ _
      | c + 1 => exact Nat.le_trans (show 1 ≤ 12 by omega) (Nat.le_max_right _ _)
    show Awaited (ConnState.run exCfg .new (upTo (forever (exConn c) .input) _)).1
      (forever (exConn c) .input _)
    rw [upTo_forever, forever, List.getD_eq_getElem?_getD, List.getElem?_eq_none hlen,
      List.take_of_length_le hlen]
    obtain ⟨m, h⟩ := settled_run c
    rw [h]
    exact .head rfl

theorem ex_expressible : exWorld.Expressible fun _ => (exInvocation []).types := by
  intro n i p a v b r h1 h2
  have hall : asked (upTo exWorld.clients n) <+: [(exCallee, exA, exVal "hello world".toList, [1, 2])] := by
    rw [show exWorld.clients = forever exClient (.handle 0) from rfl]
    rcases upTo_cases exClient (.handle 0) n with ⟨b, hb⟩ | ⟨k, -, hk⟩
    · have h : asked exClient = [(exCallee, exA, exVal "hello world".toList, [1, 2])] := rfl
      rw [← h]
      conv => rhs; rw [hb, asked_append]
      exact List.prefix_append ..
    · have h0 : asked (List.replicate k (.handle 0)) = [] := by
        clear hk
        induction k with
        | zero => rfl
        | succ k ih => rw [List.replicate_succ]; exact ih
      rw [hk, asked_append, h0]
      exact List.prefix_refl _
  obtain ⟨more, hmore⟩ := hall
  have h3 : [(exCallee, exA, exVal "hello world".toList, [1, 2])][i]? = some (p, a, v, b) := by
    rw [← hmore, List.getElem?_append_left (List.getElem?_eq_some_iff.1 h1).1]
    exact h1
  match i with
  | 0 =>
    obtain ⟨rfl, rfl, rfl, rfl⟩ : exCallee = p ∧ exA = a ∧ exVal "hello world".toList = v ∧
        [1, 2] = b := by simpa using h3
    rw [ex_serves] at h2
    cases h2
    exact ⟨_, rfl, ex_issues _⟩
  | i + 1 => cases h3

theorem ex_unharmed : exWorld.Unharmed 0 exA := by
  have hev : ∀ n, exWorld.clients n ∈ exClient ∨ exWorld.clients n = .handle 0 := by
    intro n
    rw [show exWorld.clients = forever exClient (.handle 0) from rfl, forever,
      List.getD_eq_getElem?_getD]
    cases hi : exClient[n]? with
    | none => exact .inr rfl
    | some e => exact .inl (List.mem_of_getElem? hi)
  obtain ⟨q, es, h1, h2⟩ := client_run
  have hrun : ∀ n, ∃ evs, Sys.run evs (exWorld.sys n) =
      ((Sys.run evs (exWorld.sys n)).1, ⟨some q, [], [⟨exCallee, exA, .done exOk [4, 5]⟩], 1⟩) ∧
      (Sys.run (upTo exWorld.clients n) (.new 3)).1 ++ (Sys.run evs (exWorld.sys n)).1 = es := by
    intro n
    obtain ⟨evs, e1, e2⟩ := World.sys_le (w := exWorld) (Nat.le_max_left n 15)
    have e3 := (clients_run (max n 15) (Nat.le_max_right _ _)).1
    rw [e1, sys_run_append, h1] at e3
    refine ⟨evs, ?_, ?_⟩
    · exact Prod.ext rfl (Prod.mk.inj e3).2
    · exact (Prod.mk.inj e3).1
  refine ⟨fun n h => ?_, fun n h => ?_, fun n y inner _ _ h => ?_, fun n => ?_⟩
  · rcases hev n with h' | h' <;> rw [h] at h'
    · simp [exClient] at h'
    · cases h'
  · rcases hev n with h' | h' <;> rw [h] at h'
    · simp [exClient] at h'
    · cases h'
  · obtain ⟨evs, e1, -⟩ := hrun n
    have := C53_dropped_stays _ evs h
    rw [e1] at this
    cases this
  · obtain ⟨evs, -, e2⟩ := hrun n
    rw [← e2, refusedTo_append] at h2
    show refusedTo exA (Sys.run (upTo exWorld.clients n) (.new 3)).1 = 0
    omega

/-- `C87_ends`. -/
example : ∃ N st, exWorld.Ends 0 N st :=
  C87_ends exWorld _ ex_works ex_fair ex_expressible 1 0 (by decide)

/-- `C87_answered` and `C87_round_trip`: the call ends with what the handler has returned. -/
example : ∃ N, exWorld.Ends 0 N (.done exOk [4, 5]) := by
  obtain ⟨N, st, c, k, l, u, resp, b, h1, h2, h3, h4, h5, h6⟩ := C87_round_trip exWorld _ ex_works ex_fair
    ex_expressible 1 0 exCallee exA (exVal "hello world".toList) [1, 2] _ exService _ rfl ex_serves
    ex_unharmed rfl rfl (fun _ => ex_supported)
  have hmem := blocks_sub (List.mem_of_getElem? h2) _ (returned_mem.1 (by rw [h5]; exact List.mem_singleton.2 rfl))
  have hmem := returned_mem.2 ((log_sub N c).subset hmem)
  rw [ex_log] at hmem
  simp only [returned, List.filterMap, List.mem_singleton, Prod.mk.injEq] at hmem
  obtain ⟨rfl, rfl⟩ := hmem
  have := h6 _ _ ex_served.2.2.2.2.1
  rw [if_neg (by decide)] at this
  exact ⟨N, this ▸ h1⟩

end

end WorldExamples
end Htrpc
