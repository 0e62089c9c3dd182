/-
C146: pure procedures, and servers that are replicas of each other.
-/
import Verif.Spec.Replica
import Verif.Props.System
import Verif.Props.SystemExamples

set_option linter.unusedSectionVars false

namespace Htrpc
open Spec Http

section
variable [FloatText] [UrlText] [JsonText] [Wire]

/-- A response shows what the server has decided. -/
theorem answered_verdict (cfg : ServerCfg) (es : List ConnEvent) (h : ReqHead) (l : List ConnEffect)
    (hb : (h, l) ∈ blocks (connLog cfg es)) (a : Response) (ha : a ∈ answers l) : ∃ d, Judged cfg h d := by
  obtain ⟨i, hi⟩ := List.mem_iff_getElem?.1 hb
  rcases (transcript cfg es).blocks i h l hi with hx | ⟨hx, -⟩
  · generalize hl : ConnEffect.read h :: l = l0 at hx
    cases hx with
    | refused hj => exact ⟨_, hj⟩
    | served hj => exact ⟨_, hj⟩
  · generalize hl : ConnEffect.read h :: l = l0 at hx
    cases hx with
    | read => cases hl; simp [answers] at ha
    | refusing hj => exact ⟨_, hj⟩
    | invoked hj => exact ⟨_, hj⟩
    | returned hj => exact ⟨_, hj⟩
    | serving hj => exact ⟨_, hj⟩

theorem code_injective {s s' : Status} (h : s.code = s'.code) : s = s' := by
  obtain ⟨n, h1, h2, -⟩ := C28_one_to_one.1 s
  obtain ⟨n', h1', h2', -⟩ := C28_one_to_one.1 s'
  rw [h, h2'] at h2
  cases h2
  rw [h1] at h1'
  exact Option.some.inj h1'

/-- Two servers of the same configuration whose handlers are the same functions give the same response to the same
request. -/
theorem same_answer {cfg : ServerCfg} {R : Service → Val → Bytes → Val} {F : Service → Val → Val × Bytes}
    {es es' : List ConnEvent} {h : ReqHead} {b : Bytes} {l l' : List ConnEffect} {a a' : Response}
    (hF : ActsAs F (connLog cfg es)) (hF' : ActsAs F (connLog cfg es'))
    (hb : (h, l) ∈ blocks (connLog cfg es)) (hb' : (h, l') ∈ blocks (connLog cfg es'))
    (hR : ∀ s v u, (s, v, u) ∈ calls l → u = R s v b) (hR' : ∀ s v u, (s, v, u) ∈ calls l' → u = R s v b)
    (ha : answers l = [a]) (ha' : answers l' = [a']) : a = a' := by
  have hm : a ∈ answers l := by rw [ha]; exact List.mem_singleton.2 rfl
  have hm' : a' ∈ answers l' := by rw [ha']; exact List.mem_singleton.2 rfl
  obtain ⟨d, hj⟩ := answered_verdict cfg es h l hb a hm
  cases d with
  | refuse p =>
    obtain ⟨s, h1, rfl⟩ := (C37_refused cfg es h l hb p hj).2 a hm
    obtain ⟨s', h1', rfl⟩ := (C37_refused cfg es' h l' hb' p hj).2 a' hm'
    rw [code_injective (h1.trans h1'.symm)]
  | call s v =>
    obtain ⟨w, resp, body, r, h1, h2, h3, rfl⟩ := C37_served cfg es h l hb s v hj a hm
    obtain ⟨w', resp', body', r', h1', h2', h3', rfl⟩ := C37_served cfg es' h l' hb' s v hj a' hm'
    have e1 := hR s v w (by rw [h1]; exact List.mem_singleton.2 rfl)
    have e1' := hR' s v w' (by rw [h1']; exact List.mem_singleton.2 rfl)
    have e2 := hF h l hb s v w resp body h1 h2
    have e2' := hF' h l' hb' s v w' resp' body' h1' h2'
    rw [e1] at e2
    rw [e1', ← e2] at e2'
    cases e2'
    rw [h3] at h3'
    cases h3'
    rfl

end

section
variable [LawfulFloatText] [UrlText] [JsonText] [MethodNames]

/-- **C146.** If procedures are functions of their requests and all servers have the same services, then calls are
functions too: two calls of the same procedure with the same request that complete have the same result, whichever
addresses and connections they use, whenever they are made, in the same program or in different ones, and whatever all
the other calls do. -/
theorem C146_pure (cfg : ServerCfg) (R : Service → Val → Bytes → Val) (F : Service → Val → Val × Bytes)
    (size size' : Nat) (evs evs' : List SysEvent) (es es' : Conn → List ConnEvent) (phrase phrase' : Status → Bytes)
    (types types' : Nat → List (Str × Ty)) (i i' : Nat) (p : Proc) (a a' : Addr) (v : Val) (b : Bytes) (y y' : PCall)
    (w w' : Val) (b1 b1' : Bytes) :
    letI := httpWire
    Replicated cfg R F size evs es phrase types → Replicated cfg R F size' evs' es' phrase' types' →
    (asked evs)[i]? = some (p, a, v, b) → (asked evs')[i']? = some (p, a', v, b) →
    (Sys.run evs (.new size)).2.calls[i]? = some y → y.st = .done w b1 →
    (Sys.run evs' (.new size')).2.calls[i']? = some y' → y'.st = .done w' b1' → w = w' ∧ b1 = b1' := by
  let := httpWire
  intro h h' hask hask' hy hst hy' hst'
  obtain ⟨fs, b0, c, n, r, hd, l, x, g1, g2, g3, g4, g5, g6, g7, g8, -⟩ :=
    C79_own_answer size evs (fun _ => cfg) es phrase types (fun _ s v b w => w = R s v b) h.requests i y w b1 h.linked
      h.bodies h.safe hy hst
  obtain ⟨fs', b0', c', n', r', hd', l', x', k1, k2, k3, k4, k5, k6, k7, k8, -⟩ :=
    C79_own_answer size' evs' (fun _ => cfg) es' phrase' types' (fun _ s v b w => w = R s v b) h'.requests i' y' w' b1'
      h'.linked h'.bodies h'.safe hy' hst'
  have e := g1.symm.trans hask
  have e' := k1.symm.trans hask'
  simp only [Option.some.injEq, Prod.mk.injEq] at e e'
  obtain ⟨e1, -, e3, rfl⟩ := e
  obtain ⟨e1', -, e3', rfl⟩ := e'
  have hr : ∀ {size : Nat} {evs : List SysEvent} {c : Conn} {n i : Nat} {r : Request}
      {p : Proc} {a : Addr} {v : Val} {b : Bytes}, (requestsOn (onConn c (wireLog evs (.new size))))[n]? = some (i, r) →
      (asked evs)[i]? = some (p, a, v, b) → serRequest p.method p.entry v b = .ok r := by
    intro size evs c n i r p a v b h1 h2
    obtain ⟨p', a', v', b', h3, h4⟩ := (C78_own_request size evs).1 c i r (List.mem_of_getElem? h1)
    rw [h2] at h3
    cases h3
    exact h4
  have hr1 := hr g2 hask
  have hr2 := hr k2 hask'
  rw [hr1] at hr2
  cases hr2
  have hp : y.proc = y'.proc := e1.trans e1'.symm
  rw [← hp] at k4 k7
  have hh : hd = hd' := g4.trans k4.symm
  subst hh
  have := same_answer (h.acts c) (h'.acts c') (List.mem_of_getElem? g3) (List.mem_of_getElem? k3)
    (fun s v u hm => (g5 s v u hm).2.2.1) (fun s v u hm => (k5 s v u hm).2.2.1) g6 k6
  subst this
  rw [g7] at k7
  exact ⟨Res.ok.inj k7, g8.trans k8.symm⟩

end

namespace ReplicaExamples
open SystemExamples HttpExamples ToyJson ToyMethods

/-- The calls and the server of `SystemExamples`: the hypotheses of `C146_pure` can be met. -/
theorem ex_replicated :
    letI := toyFloat; letI := toyUrl; letI := toyJson; letI := toyMethods; letI := httpWire
    Replicated exCfg (fun _ v _ => v) (fun _ _ => (exOk, [4, 5])) 3 exCalls exServer exPhrase
      (fun _ => (exInvocation []).types) := by
  let := toyFloat
  let := toyUrl
  let := toyJson
  let := toyMethods
  let := httpWire
  refine ⟨ex_asked, fun c => (ex_linked c).1, fun c => ?_, fun c => (ex_linked c).2.2, fun c => ?_⟩
  · have := (ex_linked c).2.1
    generalize (ConnState.new : ConnState) = st at this
    generalize exServer c = es at this ⊢
    induction es generalizing st with
    | nil => trivial
    | cons e es ih =>
      refine ⟨?_, ih _ this.2⟩
      intro w rest h1 h s v h2 f h3
      obtain ⟨b, h4, h5, -⟩ := this.1 w rest h1 h s v h2 f h3
      exact ⟨b, h4, h5.symm⟩
  · match c with
    | 0 =>
      intro h l hb s v w resp body h1 h2
      have e : (ConnState.run exCfg .new (exServer 0)).2 = _ := ex_log
      rw [e] at hb
      simp only [blocks, List.takeWhile, isRead, isFinal, List.mem_singleton] at hb
      cases hb
      simp [returned] at h2
      rw [← h2.1, ← h2.2]
      rfl
    | n + 1 => intro h l hb; cases hb

/-- `C146_pure`: so whoever makes this call of such a server and completes gets this result. -/
example (size : Nat) (evs : List SysEvent) (es : Conn → List ConnEvent) (phrase : Status → Bytes)
    (types : Nat → List (Str × Ty)) (i : Nat) (a : Addr) (y : PCall) (w : Val) (b : Bytes) :
    letI := toyFloat; letI := toyUrl; letI := toyJson; letI := toyMethods; letI := httpWire
    Replicated exCfg (fun _ v _ => v) (fun _ _ => (exOk, [4, 5])) size evs es phrase types →
    (asked evs)[i]? = some (exCallee, a, exVal "hello world".toList, [1, 2]) →
    (Sys.run evs (.new size)).2.calls[i]? = some y → y.st = .done w b → exOk = w ∧ [4, 5] = b := by
  let := toyFloat
  let := toyUrl
  let := toyJson
  let := toyMethods
  let := httpWire
  intro h hask hy hst
  exact C146_pure exCfg _ _ 3 size exCalls evs exServer es exPhrase phrase _ types 0 i exCallee exA a
    (exVal "hello world".toList) [1, 2] _ y exOk w [4, 5] b ex_replicated h rfl hask ex_wire.2 rfl hy hst

end ReplicaExamples

end Htrpc
