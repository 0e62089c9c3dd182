/-
What goes over the connections of a pool (C78).
-/
import Verif.Lemmas.Turns

set_option linter.unusedSectionVars false

namespace Htrpc
open Spec

section
variable [FloatText]

theorem wire_reach (size : Nat) (evs : List SysEvent) :
    Sys.WireInv (wireLog evs (.new size)) (Sys.run evs (.new size)).1 (Sys.run evs (.new size)).2 ∧
      Sys.CallInv (asked evs) (wireLog evs (.new size)) (Sys.run evs (.new size)).2 := by
  obtain ⟨h1, h2⟩ := Sys.wire_new size
  have := Sys.wire_run (Sys.inv_new size) h1 h2 evs
  simpa using this

theorem onConn_mem {c : Conn} {x : WireStep} {w : List (Conn × WireStep)} :
    x ∈ onConn c w ↔ (c, x) ∈ w := by
  rw [onConn, List.mem_filterMap]
  constructor
  · rintro ⟨⟨d, y⟩, h1, h2⟩
    split at h2
    · rename_i hd
      cases h2
      cases hd
      exact h1
    · cases h2
  · intro h
    exact ⟨(c, x), h, if_pos rfl⟩

theorem requestsOn_mem {i : Nat} {r : Request} {l : List WireStep} :
    (i, r) ∈ requestsOn l ↔ .sends i r ∈ l := by
  rw [requestsOn, List.mem_filterMap]
  constructor
  · rintro ⟨x, h1, h2⟩
    cases x <;> simp at h2
    obtain ⟨rfl, rfl⟩ := h2
    exact h1
  · intro h
    exact ⟨_, h, rfl⟩

/-- **C78.** Whatever happens, and however often a connection is reused: it carries one request at a
time, and the response to it is read completely by the same call before the next request is written. -/
theorem C78_in_turn (size : Nat) (evs : List SysEvent) (c : Conn) :
    Turns (onConn c (wireLog evs (.new size))) := (wire_reach size evs).1.any c

/-- **C78.** Idle connections are between two exchanges. -/
theorem C78_idle (size : Nat) (evs : List SysEvent) (p : Pool) (id : ConnId) (c : Conn)
    (hp : (Sys.run evs (.new size)).2.pool = some p) (hc : (id, c) ∈ p.connections) :
    InTurn (onConn c (wireLog evs (.new size))) := by
  have hinv := reach_inv size evs
  obtain ⟨h1, -⟩ := wire_reach size evs
  refine h1.free c ?_
  obtain ⟨xs, hx, hpl⟩ := Sys.inv_pool.1 hinv.pool
  refine (hpl.idle c).2 ?_
  rw [Sys.pooled, hp] at hx
  obtain ⟨sz, ip, hl, rfl⟩ := hx
  have hmem : c ∈ p.connections.map Prod.snd := List.mem_map.2 ⟨_, hc, rfl⟩
  rw [List.map_append]
  obtain ⟨ys, hys, hperm⟩ := pool_idle hl
  rw [← hys] at hmem
  exact List.mem_append_left _ ((hperm.map Prod.snd).mem_iff.2 hmem)

/-- **C78.** What a call writes is the request that was given to it, and it writes it at most once,
over all connections. -/
theorem C78_own_request (size : Nat) (evs : List SysEvent) :
    (∀ c i r, (i, r) ∈ requestsOn (onConn c (wireLog evs (.new size))) →
      ∃ p a v b, (asked evs)[i]? = some (p, a, v, b) ∧ serRequest p.method p.entry v b = .ok r) ∧
    ((wireLog evs (.new size)).filterMap fun | (_, .sends i _) => some i | _ => none).Nodup := by
  obtain ⟨-, h⟩ := wire_reach size evs
  exact ⟨fun c i r hr => h.sends c i r (onConn_mem.1 (requestsOn_mem.1 hr)), h.once⟩

/-- **C78.** A call that completes has sent its request over some connection, behind complete exchanges
of other calls, and its result is what it has read right after that. -/
theorem C78_own_response (size : Nat) (evs : List SysEvent) (i : Nat) (y : PCall) (v : Val) (b : Bytes)
    (hy : (Sys.run evs (.new size)).2.calls[i]? = some y) (hst : y.st = .done v b) :
    ∃ c E x rest, onConn c (wireLog evs (.new size)) = E ++ x ++ rest ∧ InTurn E ∧
      Completed i y.proc v b x :=
  (wire_reach size evs).2.done i y v b hy hst

/-- What call `i` was asked. -/
theorem asked_call (size : Nat) (evs : List SysEvent) (i : Nat) (y : PCall)
    (hy : (Sys.run evs (.new size)).2.calls[i]? = some y) :
    ∃ v b, (asked evs)[i]? = some (y.proc, y.addr, v, b) := by
  obtain ⟨v, b, h, -⟩ := (wire_reach size evs).2.proc i y hy
  exact ⟨v, b, h⟩

end

/-! ### Examples -/

section Examples

/-- `C78`: the second call of `exEvents` uses the connection of the first. -/
example : letI := toyFloat
    ∃ r, onConn 0 (wireLog exEvents (.new 3)) =
      [.sends 0 r, .sent 0, .head 0 404 [], .body 0 [7], .sends 1 r, .sent 1] := by
  let := toyFloat
  obtain ⟨r, hr⟩ := exCall_sent [1]
  have hd : deResponse exProc.resTy 404 [] = .ok (.unitVariant "NotFound".toList) := rfl
  have hm : exProc.method ≠ .head := by decide
  refine ⟨r, ?_⟩
  simp [onConn, wireLog, wireOf, ioStep, begins, exEvents, Sys.step, Sys.call, Sys.send, Sys.new,
    Sys.poll, Sys.handle,
    Cmd.event, Pool.step, Pool.handleAcquire, Pool.acquire, Pool.withSize, BTreeMap.firstFrom,
    Sys.reply, Sys.setCall, CallInner.new, hr, Sys.settle, callStep, callDecode, hd, hm, Pool.release,
    BTreeMap.insert, BTreeMap.remove, Pool.dropExceeded, ConnId.lt, natLt, exA, exB,
    Pool.handleBlacklist, timeEnd, Pool.enlist, Pool.unlist, Sys.dropPool, queuedConns]

end Examples
end Htrpc
