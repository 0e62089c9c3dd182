/-
Cases that meet the hypotheses of the theorems in Verif/Props/Peer.lean.
-/
import Verif.Props.Peer
import Verif.Props.SystemExamples
import Verif.Props.InteropExamples

namespace Htrpc
open Spec Http

namespace PeerExamples
open ToyJson ToyMethods HttpExamples SystemExamples

def exHs : List Header := [(utf8 "Content-Length".toList, utf8 "1".toList)]

/-- A call that completes. -/
def exFirst : List SysEvent :=
  [.call exCallee exA (exVal "hello world".toList) [1, 2], .handle 0, .poll 0 .connected,
   .poll 0 .written, .poll 0 (.head 200 exHs), .poll 0 (.body [4])]

/-- And another one over the same connection. -/
def exSecond : List SysEvent :=
  [.call exCallee exA (exVal "hello world".toList) [], .handle 1, .handle 2, .poll 1 .notReady,
   .poll 1 .written, .poll 1 (.head 200 exHs), .poll 1 (.body [9])]

def exRead (b : UInt8) : Bytes := utf8 "HTTP/1.1 200 Fine\r\nContent-Length: 1\r\n\r\n".toList ++ [b]

theorem ex_read (b : UInt8) : ResponseText (.other 1) 200 exHs [b] (exRead b) := by
  have h : HeaderText exHs (utf8 "Content-Length: 1\r\n".toList) :=
    .cons (n := utf8 "Content-Length".toList) (v := utf8 "1".toList) (a := [32]) (b := [])
      ⟨by decide, by decide⟩
      (InteropExamples.ex_value rfl rfl (by decide) (by decide) (by decide)) (by unfold Blanks; decide)
      (by unfold Blanks; decide) .nil
  exact .full (by decide) (.phrase (ds := "200".toList) (p := utf8 "Fine".toList) ⟨by decide, by decide⟩ (by decide)
    (by decide)) h (.given (a := []) (ds := "1".toList) (by decide) rfl (by decide) (by decide)
      ⟨by decide, by decide⟩)

theorem ex_first : letI := toyFloat
    wireLog exFirst (.new 3) = [(0, .sends 0 (exRequest "hello world".toList [1, 2])), (0, .sent 0),
      (0, .head 0 200 exHs), (0, .body 0 [4])] := by
  let := toyFloat
  unfold exFirst
  generalize "hello world".toList = tag
  have hr := ex_ser tag [1, 2]
  have hm : exCallee.method ≠ .head := by decide
  rw [show (.other 1 : Method) = exCallee.method from rfl, show exEntry = exCallee.entry from rfl] at hr
  simp [wireLog, wireOf, ioStep, begins, Sys.step, Sys.call, Sys.send, Sys.new,
    Sys.poll, Sys.handle,
    Cmd.event, Pool.step, Pool.handleAcquire, Pool.acquire, Pool.withSize, BTreeMap.firstFrom,
    Sys.reply, Sys.setCall, CallInner.new, hr, Sys.settle, callStep, hm, exA]

theorem ex_both : letI := toyFloat
    wireLog (exFirst ++ exSecond) (.new 3) = [(0, .sends 0 (exRequest "hello world".toList [1, 2])), (0, .sent 0),
      (0, .head 0 200 exHs), (0, .body 0 [4]),
      (0, .sends 1 (exRequest "hello world".toList [])), (0, .sent 1),
      (0, .head 1 200 exHs), (0, .body 1 [9])] ∧
    (Sys.run (exFirst ++ exSecond) (.new 3)).2.calls[1]? = some ⟨exCallee, exA, .done exOk [9]⟩ := by
  let := toyFloat
  unfold exFirst exSecond
  generalize "hello world".toList = tag
  have hr := ex_ser tag [1, 2]
  have hr' := ex_ser tag []
  have hd : deResponse exCallee.resTy 200 exHs = .ok exOk := rfl
  have hm : exCallee.method ≠ .head := by decide
  rw [show (.other 1 : Method) = exCallee.method from rfl, show exEntry = exCallee.entry from rfl] at hr hr'
  simp [wireLog, wireOf, ioStep, begins, Sys.run, Sys.step, Sys.call, Sys.send, Sys.new,
    Sys.poll, Sys.handle,
    Cmd.event, Pool.step, Pool.handleAcquire, Pool.acquire, Pool.withSize, BTreeMap.firstFrom,
    Sys.reply, Sys.setCall, CallInner.new, hr, hr', Sys.settle, callStep, callDecode, hd, hm, Pool.release,
    BTreeMap.insert, BTreeMap.remove, Pool.dropExceeded, ConnId.lt, natLt, exA]

/-- What the server writes: two responses at once. -/
def exWrites : Conn → Bytes
  | 0 => exRead 4 ++ exRead 9
  | _ => []

theorem reads_full {i : Nat} {r : Request} {b : UInt8} {l : List WireStep} {d rest : Bytes} {hs : List Header}
    (h : ReadsOff exHs d l rest) :
    ReadsOff hs (exRead b ++ d) (.sends i r :: .sent i :: .head i 200 exHs :: .body i [b] :: l)
      rest := by
  have := C93_read _ _ _ _ _ d (ex_read b)
  cases this with
  | full h1 h2 h3 h4 => exact .sends (.sent (.head h2 (.body h3 h4 h)))

theorem ex_reads_off (c : Conn) : letI := toyFloat
    ReadsOff [] (exWrites c) (onConn c (wireLog (exFirst ++ exSecond) (.new 3))) [] := by
  let := toyFloat
  rw [ex_both.1]
  match c with
  | 0 =>
    have h := reads_full (i := 1) (r := exRequest "hello world".toList []) (b := 9) (d := []) (l := [])
      (rest := []) (hs := exHs) .nil
    rw [List.append_nil] at h
    exact reads_full h
  | c + 1 => exact .nil

/-- `C107_nth_response`, `C107_early`: the second response is there before the second request is sent, and
it is what the second call completes with. -/
example : letI := toyFloat
    ([9] : Bytes) = [9] ∧ ReadsResponse 200 exHs true exCallee.resTy exOk := by
  let := toyFloat
  refine C107_early 3 exFirst exSecond exWrites (fun _ => []) 0 ex_reads_off (exRead 4) (exRead 9) []
    (.other 1) 200 _ [9] ⟨[], by simp [exWrites]⟩ ?_ (ex_read 9) 1 (exRequest "hello world".toList [])
    ⟨exCallee, exA, .done exOk [9]⟩ ?_ exOk [9] ?_ rfl ex_both.2 rfl
  · rw [ex_first]
    have := ResponseTexts.cons (ex_read 4) .nil
    rwa [List.append_nil] at this
  · exact ⟨trivial, trivial⟩
  · rw [ex_first, ex_both.1]
    rfl

/-- `C107_no_response`: an HTTP/1.0 server. -/
example : NoResponse (.other 1) (utf8 "HTTP/1.0 200 OK\r\n\r\n".toList) ∧
    EmptyLine (utf8 "HTTP/1.0 200 OK\r\n\r\n".toList) := by
  refine ⟨?_, utf8 "HTTP/1.0 200 OK".toList, [], by rfl⟩
  intro more c hs b text ht hp
  obtain ⟨x, hx⟩ := hp
  have h := C93_read _ _ _ _ _ x ht
  rw [hx] at h
  have hb : readResponseHead (utf8 "HTTP/1.0 200 OK\r\n\r\n".toList ++ more) = .bad := by rfl
  cases h with
  | head _ h => rw [hb] at h; cases h
  | full _ h => rw [hb] at h; cases h

end PeerExamples

end Htrpc
