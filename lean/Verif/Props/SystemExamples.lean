/-
A case that meets the hypotheses of the theorem in Verif/Props/System.lean.
-/
import Verif.Props.System
import Verif.Props.HttpExamples

namespace Htrpc
open Spec Http

namespace SystemExamples
open ToyJson ToyMethods HttpExamples

def exOk : Val := .unitVariant "Ok".toList

def exCallee : Proc := ⟨.other 1, exEntry, .enum [("Ok".toList, .unit)]⟩

/-- A call that completes, and a second one over the same connection. -/
def exCalls : List SysEvent :=
  [.call exCallee exA (exVal "hello world".toList) [1, 2], .handle 0, .poll 0 .connected,
   .poll 0 .written, .poll 0 (.head 200 [contentLength [4, 5]]), .poll 0 (.body [4, 5]),
   .call exCallee exA (exVal "hello world".toList) [], .handle 1, .handle 2, .poll 1 .notReady]

theorem ex_wire : letI := toyFloat
    wireLog exCalls (.new 3) = [(0, .sends 0 (exRequest "hello world".toList [1, 2])), (0, .sent 0),
      (0, .head 0 200 [contentLength [4, 5]]), (0, .body 0 [4, 5]),
      (0, .sends 1 (exRequest "hello world".toList []))] ∧
    (Sys.run exCalls (.new 3)).2.calls[0]? = some ⟨exCallee, exA, .done exOk [4, 5]⟩ := by
  let := toyFloat
  unfold exCalls
  generalize "hello world".toList = tag
  have hr := ex_ser tag [1, 2]
  have hr' := ex_ser tag []
  have hd : deResponse exCallee.resTy 200 [contentLength [4, 5]] = .ok exOk := rfl
  have hm : exCallee.method ≠ .head := by decide
  rw [show (.other 1 : Method) = exCallee.method from rfl, show exEntry = exCallee.entry from rfl] at hr hr'
  simp [wireLog, wireOf, ioStep, begins, Sys.run, Sys.step, Sys.call, Sys.send, Sys.new,
    Sys.poll, Sys.handle,
    Cmd.event, Pool.step, Pool.handleAcquire, Pool.acquire, Pool.withSize, BTreeMap.firstFrom,
    Sys.reply, Sys.setCall, CallInner.new, hr, hr', Sys.settle, callStep, callDecode, hd, hm, Pool.release,
    BTreeMap.insert, BTreeMap.remove, Pool.dropExceeded, ConnId.lt, natLt, exA]

def exServer : Conn → List ConnEvent
  | 0 => HttpExamples.exEvents
  | _ => []

def exPhrase (_ : Status) : Bytes := utf8 "Fine".toList

theorem ex_linked (c : Conn) :
    letI := toyFloat; letI := toyUrl; letI := toyJson; letI := toyMethods; letI := httpWire
    Linked (onConn c (wireLog exCalls (.new 3))) (exServer c) (connLog exCfg (exServer c)) exPhrase ∧
    ReadsWhole exCfg (fun _ v b w => v = w ∧ b = [1, 2]) .new (exServer c) ∧
    SafelyReturned (connLog exCfg (exServer c)) := by
  let := toyFloat
  let := toyUrl
  let := toyJson
  let := toyMethods
  let := httpWire
  have hph : ∀ s, ∀ b ∈ exPhrase s, ValueByte b :=
    fun _ => show ∀ b ∈ utf8 "Fine".toList, ValueByte b by decide
  rw [ex_wire.1]
  match c with
  | 0 =>
    obtain ⟨-, h2, h3, -, h5, h6⟩ := ex_served
    have hs := C67_safe_response _ _ _ _ h5 h6 [4, 5] ⟨.ok, [contentLength [4, 5]], [4, 5]⟩ rfl
    obtain ⟨k1, f, k2, k3⟩ := C67_response_arrives_partial exOk [4, 5]
      ⟨.ok, [contentLength [4, 5]], [4, 5]⟩ rfl hs.1 hs.2 (exPhrase .ok) (hph _) ⟨.other 1, [], []⟩
    have hon : onWire ⟨.other 1, [], []⟩ ⟨.ok, [contentLength [4, 5]], [4, 5]⟩ =
        ⟨.ok, [contentLength [4, 5]], [4, 5]⟩ := rfl
    rw [hon] at k1
    have k1 := k1 []
    have k3 := k3 []
    rw [if_neg (by decide)] at k1
    generalize hbytes : writeResponse (exPhrase .ok) ⟨.ok, [contentLength [4, 5]], [4, 5]⟩ = d at k1
    rw [List.append_nil] at k1
    refine ⟨⟨?_, ⟨d, [], ?_, ?_⟩, hph⟩, h3, ?_⟩
    · simpa [onConn, requestsOn, exServer] using h2
    · rw [show exServer 0 = HttpExamples.exEvents from rfl, ex_log, written]
      simp [answers, hbytes]
    · simp only [onConn, List.filterMap, if_true]
      exact .sends (.sent (.head k1 (.body k2 k3 (.sends .nil))))
    · rw [show exServer 0 = HttpExamples.exEvents from rfl, ex_log]
      intro resp body hmem r hr
      simp only [returned, List.filterMap, List.mem_singleton, Prod.mk.injEq] at hmem
      obtain ⟨rfl, rfl⟩ := hmem
      cases hr
      exact hs
  | n + 1 =>
    refine ⟨⟨List.prefix_refl _, ⟨[], [], List.prefix_refl _, ?_⟩, hph⟩, trivial, fun _ _ h => nomatch h⟩
    simp [onConn]
    exact .nil

theorem ex_asked (i : Nat) (p : Proc) (a : Addr) (v : Val) (b : Bytes) (r : Request)
    (h1 : (asked exCalls)[i]? = some (p, a, v, b)) : letI := toyFloat; letI := toyUrl; letI := toyJson
    serRequest p.method p.entry v b = .ok r →
    ∃ fs, v = .struct fs ∧ Issues ⟨p.method, p.entry, fs, (exInvocation []).types, b⟩ r := by
  let := toyFloat
  let := toyUrl
  let := toyJson
  intro h2
  have key : ∀ b, serRequest (.other 1) exEntry (exVal "hello world".toList) b = .ok r →
      r = exRequest "hello world".toList b := by
    intro b h
    rw [ex_ser] at h
    exact (Res.ok.inj h).symm
  have hasked : asked exCalls = [(exCallee, exA, exVal "hello world".toList, [1, 2]),
    (exCallee, exA, exVal "hello world".toList, [])] := rfl
  rw [hasked] at h1
  match i with
  | 0 =>
    obtain ⟨rfl, rfl, rfl, rfl⟩ : exCallee = p ∧ exA = a ∧ exVal "hello world".toList = v ∧
        [1, 2] = b := by simpa using h1
    rw [key _ h2]
    exact ⟨_, rfl, ex_issues _⟩
  | 1 =>
    obtain ⟨rfl, rfl, rfl, rfl⟩ : exCallee = p ∧ exA = a ∧ exVal "hello world".toList = v ∧
        [] = b := by simpa using h1
    rw [key _ h2]
    exact ⟨_, rfl, ex_issues _⟩
  | i + 2 => simp at h1

/-- `C79`: the call completes with what the handler has returned. -/
example : letI := toyFloat; letI := toyUrl; letI := toyJson; letI := toyMethods; letI := httpWire
    ∃ l h, (blocks (connLog exCfg HttpExamples.exEvents))[0]? = some (h, l) ∧ returned l = [(exOk, [4, 5])] ∧
      ResponseArrives false exOk exOk := by
  let := toyFloat
  let := toyUrl
  let := toyJson
  let := toyMethods
  let := httpWire
  obtain ⟨fs, b, c, n, r, h, l, a, h1, h2, h3, h4, h5, h6, h7, h8, h9⟩ := C79_own_answer 3 exCalls
    (fun _ => exCfg) exServer exPhrase (fun _ => (exInvocation []).types) (fun _ _ v b w => v = w ∧ b = [1, 2]) ex_asked
    0 _ exOk [4, 5] (fun c => (ex_linked c).1) (fun c => (ex_linked c).2.1)
    (fun c => (ex_linked c).2.2) ex_wire.2 rfl
  have hcn : c = 0 ∧ n = 0 := by
    rw [ex_wire.1] at h2
    clear h1 h3 h4 h5 h6 h7 h8 h9
    generalize exRequest "hello world".toList [1, 2] = r1 at h2
    generalize exRequest "hello world".toList [] = r2 at h2
    match c, n with
    | 0, 0 => exact ⟨rfl, rfl⟩
    | 0, 1 => simp [onConn, requestsOn] at h2
    | 0, n + 2 => simp [onConn, requestsOn] at h2
    | c + 1, n => simp [onConn, requestsOn] at h2
  obtain ⟨rfl, rfl⟩ := hcn
  have hl : returned l = [(exOk, [4, 5])] := by
    have hb := h3
    rw [show exServer 0 = HttpExamples.exEvents from rfl, ex_log] at hb
    have := congrArg (Option.map fun x => returned x.2) hb
    simp only [blocks, List.takeWhile, isRead, isFinal] at this
    exact (Option.some.inj this).symm
  have hresp := (h9 exOk [4, 5] (by rw [hl]; exact List.mem_singleton.2 rfl)).2
  refine ⟨l, h, h3, hl, hresp (.unitVariant (by simp)) ⟨?_, ?_, ?_⟩ (fun m h => nomatch h)⟩
  · intro vs h
    cases h with
    | enum => simp [DistinctNames]
    | newtypeVariant h _ => simp at h
  · intro ts h
    cases h with
    | variant h => simp at h
    | newtypeVariant h _ => simp at h
  · intro ts u h
    cases h with
    | variant h => simp at h
    | newtypeVariant h _ => simp at h

end SystemExamples
end Htrpc
