/-
Pooled clients and servers that run for ever (C87).
-/
import Verif.Lemmas.World
import Verif.Props.EndToEnd

set_option linter.unusedSectionVars false

namespace Htrpc
open Spec Http

section
variable [LawfulFloatText] [UrlText] [JsonText] [MethodNames] (w : World)
  (types : Nat → List (Str × Ty))

theorem reached_end {s : Sys} {i : Nat} (h : s.Reached i 5) :
    ∃ y, s.calls[i]? = some y ∧ Finished y.st := by
  obtain ⟨y, m, hy, hm, h5⟩ := h
  refine ⟨y, hy, ?_⟩
  generalize y.st = st at hm
  unfold stage at hm
  split at hm
  · split at hm <;> cases hm; omega
  · split at hm <;> cases hm; omega
  · split at hm <;> cases hm <;> omega
  · cases st <;> simp_all [Finished]

/-- **C87.** Pooled clients make any calls with requests that HTTP can express, and at the other end of
every connection is a server, all running for ever.  If the network delivers what is sent, the handlers
of the servers do their work, and nobody is kept waiting for what is ready, every call ends, and its end
is final. -/
theorem C87_ends (hw : w.Works) (hf : w.Fair) (he : w.Expressible types) (n i : Nat)
    (hi : i < (w.sys n).calls.length) : ∃ N st, w.Ends i N st := by
  obtain ⟨N, h⟩ := World.ends hw hf he hi
  obtain ⟨y, hy, hfin⟩ := reached_end h
  exact ⟨N, y.st, World.finished_stays hy hfin⟩

/-- **C87.** If moreover nothing from outside makes the call fail, it ends with the response of a server
to its own request: with what the response means for the type of the procedure, or with the error
`Invalid` if it means nothing for it.  The handler called for it gets the body and the parts that were
sent, and what the handler has returned is what the call ends with. -/
theorem C87_answered (hw : w.Works) (hf : w.Fair) (he : w.Expressible types) (n i : Nat) (p : Proc)
    (a : Addr) (v : Val) (body : Bytes) (r : Request)
    (hask : (asked (upTo w.clients n))[i]? = some (p, a, v, body))
    (hr : serRequest p.method p.entry v body = .ok r) (hu : w.Unharmed i a) :
    ∃ (N : Nat) (st : PCallSt) (c : Conn) (k : Nat) (l : List ConnEffect) (x : Response)
      (fs : List (Str × Val)), w.Ends i N st ∧ v = .struct fs ∧
      (requestsOn (w.wire N c))[k]? = some (i, r) ∧
      (blocks (w.log N c))[k]? = some ((⟨p.method, r.target, r.headers⟩ : ReqHead), l) ∧ answers l = [x] ∧
      ((∃ u, deResponse p.resTy x.status.code x.headers = .ok u ∧ st = .done u x.body) ∨
        (deResponse p.resTy x.status.code x.headers = .err .invalid ∧ st = .failed .invalid)) ∧
      (∀ s u z, (s, u, z) ∈ calls l → s ∈ (w.cfg c).services ∧ s.method = p.method ∧
        w.read c s u body z ∧ (s.entry = p.entry → s.reqTy = .struct (types i) →
          ∃ ws, u = .struct ws ∧ FieldsArrive PartArrives fs ws)) ∧
      ∀ resp b, (resp, b) ∈ returned l → x.body = (if p.method = .head then [] else b) ∧
        (∀ u, st = .done u x.body → HasTy resp p.resTy → ResponseTy p.resTy →
          (∀ m, Around resp m → (m, x.status.code) ∈ statusTable) → ResponseArrives false resp u) ∧
        ∀ ht code, PlainResponse resp p.resTy ht code → st = .done resp x.body := by
  let := httpWire
  have hlen : ∀ m, (w.sys m).calls.length = (asked (upTo w.clients m)).length := fun m =>
    (wire_reach w.size (upTo w.clients m)).2.len
  have hasked : ∀ m, i < (w.sys m).calls.length →
      (asked (upTo w.clients m))[i]? = some (p, a, v, body) := by
    intro m hm
    rw [hlen] at hm
    obtain ⟨b, hb⟩ := upTo_le w.clients (Nat.le_max_left m n)
    obtain ⟨b', hb'⟩ := upTo_le w.clients (Nat.le_max_right m n)
    have h1 : (asked (upTo w.clients (max m n)))[i]? = some (p, a, v, body) := by
      rw [hb', asked_append, List.getElem?_append_left (List.getElem?_eq_some_iff.1 hask).1]
      exact hask
    rwa [hb, asked_append, List.getElem?_append_left hm] at h1
  have hi : i < (w.sys n).calls.length := by
    rw [hlen]
    exact (List.getElem?_eq_some_iff.1 hask).1
  have hway : ∀ m, ∀ y, (w.sys m).calls[i]? = some y → World.Way w i m p v body y := by
    intro m
    induction m with
    | zero => intro y hy; simp [World.sys, upTo, Sys.run, Sys.new] at hy
    | succ m ih =>
      intro y hy
      cases hc : (w.sys m).calls[i]? with
      | some y0 =>
        obtain ⟨z, g1, g2⟩ := World.way_step hr (hasked m (List.getElem?_eq_some_iff.1 hc).1) hu hc
          (ih y0 hc)
        rw [hy] at g1
        cases g1
        exact g2
      | none =>
        have hlt : i < (w.sys (m + 1)).calls.length := (List.getElem?_eq_some_iff.1 hy).1
        have hge : (w.sys m).calls.length ≤ i := List.getElem?_eq_none_iff.1 hc
        have ha := hasked (m + 1) hlt
        rw [hlen] at hge hlt
        rw [upTo_succ, asked_append] at hlt ha
        rw [World.sys_succ] at hy
        generalize w.clients m = e at hlt ha hy
        cases e with
        | call p' a' v' b' =>
          rw [List.getElem?_append_right hge] at ha
          have e0 : i - (asked (upTo w.clients m)).length = 0 := by
            simp [asked] at hlt
            unfold asked at hge ⊢
            omega
          rw [e0] at ha
          simp [asked] at ha
          obtain ⟨rfl, rfl, rfl, rfl⟩ := ha
          simp only [Sys.step, Sys.call, Sys.send_calls] at hy
          rw [List.getElem?_append_right (by rw [hlen]; exact hge), hlen, e0] at hy
          cases hy
          exact ⟨rfl, .inl ⟨_, rfl⟩⟩
        | _ => simp [asked] at hlt; unfold asked at hge; omega
  obtain ⟨N, h⟩ := World.ends hw hf he hi
  obtain ⟨y, hy, hfin⟩ := reached_end h
  obtain ⟨rfl, hth⟩ := hway N y hy
  obtain ⟨M, hM, hth⟩ : ∃ m, m ≤ N ∧ World.Through w i m y.proc y.st := by
    rcases hth with ⟨q, h⟩ | ⟨q, h, -⟩ | ⟨c, q, h⟩ | h
    · rw [h] at hfin; exact hfin.elim
    · rw [h] at hfin; exact hfin.elim
    · rw [h] at hfin; exact hfin.elim
    · exact h
  obtain ⟨c, E, x, code, hs, b, h1, h2, h3, h4, h5, h6, h7⟩ := hth
  obtain ⟨rest, h8⟩ := World.wire_le (w := w) hM c
  rw [h1] at h8
  obtain ⟨p', ad, fs, b0, k, r', h, l, an, g1, g2, g3, g4, g5, g6, g7, g8, g9, g10, g11⟩ :=
    own_exchange w.size (upTo w.clients N) types (he N) c (w.cfg c) (upTo (w.servers c) N) w.phrase
      (w.read c) i E x rest h8.symm h2 h3 (hw.linked N c) (hw.bodies N c) (hw.safe N c)
  rw [hasked N (List.getElem?_eq_some_iff.1 hy).1] at g1
  cases g1
  obtain ⟨p', a', v', b', e1, e2⟩ := (C78_own_request w.size (upTo w.clients N)).1 c i r'
    (requestsOn_mem.2 (by
      have := List.mem_of_getElem? g2
      exact requestsOn_mem.1 this))
  rw [hasked N (List.getElem?_eq_some_iff.1 hy).1] at e1
  cases e1
  rw [hr] at e2
  cases e2
  subst g5
  obtain ⟨rfl, rfl⟩ := h5 _ _ g9
  have hab : b = an.body := by
    rcases h6 with ⟨hm, rfl⟩ | ⟨hm, hb⟩
    · obtain ⟨-, body, -, hb⟩ := g8
      rw [hb, if_pos hm]
    · exact g10 _ hb
  subst hab
  refine ⟨N, y.st, c, k, l, an, fs, World.finished_stays hy hfin, rfl, g2, g4, g7, ?_, g6, ?_⟩
  · rw [h7, World.endOf]
    rcases (deResponse_sat y.proc.resTy an.status.code an.headers).ok_or_invalid with ⟨u, hd⟩ | hd
    · exact .inl ⟨u, hd, by rw [hd]⟩
    · exact .inr ⟨hd, by rw [hd]⟩
  · intro resp b hmem
    obtain ⟨q1, q2⟩ := g11 resp b hmem
    refine ⟨q1, fun u hst hty hrt hv => ?_, fun ht code hp => ?_⟩
    · refine q2 _ u ?_ hty hrt hv
      rw [h7, World.endOf] at hst
      cases hd : deResponse y.proc.resTy an.status.code an.headers with
      | ok z => rw [hd] at hst; cases hst; rfl
      | err k => rw [hd] at hst; cases hst
      | panic => rw [hd] at hst; cases hst
    · obtain ⟨r0, e1, e2, e3, e4⟩ := C29_response_round_trip resp y.proc.resTy ht code hp b
      obtain ⟨r1, f1, rfl⟩ := block_answered g4 hmem (by rw [g7]; exact List.mem_singleton.2 rfl)
      rw [e1] at f1
      cases f1
      obtain ⟨w1, w2, w3⟩ := onWire_facts ⟨y.proc.method, r.target, r.headers⟩ r0
      have := e4 [] [] (by simp [AsciiNames]) (by simp [AsciiNames]) (by simp [Foreign]) (by simp [Foreign])
      rw [List.nil_append, List.append_nil, ← w1, ← w2] at this
      rw [h7, World.endOf, this]

/-- **C87.** If moreover all servers offer the called procedure and request and response are in the
supported class, the handler is called with the value and the body that were sent, and the call ends
with the value that the handler returns, and its body, which is empty for `HEAD`. -/
theorem C87_round_trip (hw : w.Works) (hf : w.Fair) (he : w.Expressible types) (n i : Nat) (p : Proc)
    (a : Addr) (v : Val) (body : Bytes) (r : Request) (s : Service) (ht : Option Ty)
    (hask : (asked (upTo w.clients n))[i]? = some (p, a, v, body))
    (hr : serRequest p.method p.entry v body = .ok r) (hu : w.Unharmed i a)
    (hm : s.method = p.method) (hen : s.entry = p.entry) (hs : ∀ c, Supported (w.cfg c) s v ht) :
    ∃ (N : Nat) (st : PCallSt) (c : Conn) (k : Nat) (l : List ConnEffect) (u resp : Val) (b : Bytes),
      w.Ends i N st ∧
      (blocks (w.log N c))[k]? = some ((⟨p.method, r.target, r.headers⟩ : ReqHead), l) ∧
      calls l = [(s, v, u)] ∧ w.read c s v body u ∧ returned l = [(resp, b)] ∧
      ∀ ht' code, PlainResponse resp p.resTy ht' code →
        st = .done resp (if p.method = .head then [] else b) := by
  let := httpWire
  obtain ⟨N, st, c, k, l, x, fs, h1, rfl, h3, h4, h5, h6, h7, h8⟩ :=
    C87_answered w types hw hf he n i p a v body r hask hr hu
  have hmeth : r.method = p.method ∧ r.body = body := by
    obtain ⟨e1, e2, -⟩ := C26_request_content_length _ _ _ _ _ hr
    exact ⟨e2, e1⟩
  have hj : Judged (w.cfg c) ⟨p.method, r.target, r.headers⟩ (.call s (.struct fs)) := by
    have : Carries (w.cfg c) ⟨s, .struct fs, body⟩ (⟨r.method, r.target, [] ++ r.headers ++ []⟩, r.body) :=
      .intro (hs c) (by rw [hm, hen]; exact hr)
        (.intro (by simp [AsciiNames]) (by simp [AsciiNames]) (by simp [Foreign]) (by simp [Foreign]))
    rw [List.nil_append, List.append_nil, hmeth.1] at this
    exact this.judged.1
  have hone : ∀ {d}, Judged (w.cfg c) ⟨p.method, r.target, r.headers⟩ d → d = .call s (.struct fs) := by
    intro d hd
    have g1 := wanted_of_judged hd
    have g2 := wanted_of_judged hj
    rw [g1] at g2
    cases d with
    | refuse p => simp at g2
    | call s v => simp only [Option.some.injEq, Prod.mk.injEq] at g2; rw [g2.1, g2.2]
  obtain ⟨u, resp, b, e1, e2⟩ : ∃ u resp b, calls l = [(s, .struct fs, u)] ∧
      returned l = [(resp, b)] := by
    rcases (transcript (w.cfg c) (upTo (w.servers c) N)).blocks k _ l h4 with hx | ⟨hx, -⟩
    · generalize hl : ConnEffect.read _ :: l = l0 at hx
      cases hx with
      | refused hj' => cases hone hj'
      | served hj' hr =>
        cases hone hj'
        cases hl
        exact ⟨_, _, _, rfl, rfl⟩
    · generalize hl : ConnEffect.read _ :: l = l0 at hx
      cases hx with
      | read => cases hl; cases h5
      | refusing hj' => cases hone hj'
      | invoked hj' => cases hone hj'; cases hl; cases h5
      | returned hj' => cases hone hj'; cases hl; cases h5
      | serving hj' hr => cases hone hj'; cases hl; exact ⟨_, _, _, rfl, rfl⟩
  obtain ⟨q1, q2, q3⟩ := h8 resp b (by rw [e2]; exact List.mem_singleton.2 rfl)
  refine ⟨N, st, c, k, l, u, resp, b, h1, h4, e1,
    (h7 s _ u (by rw [e1]; exact List.mem_singleton.2 rfl)).2.2.1, e2, fun ht' code hp => ?_⟩
  rw [← q1]
  exact q3 ht' code hp

end
end Htrpc
