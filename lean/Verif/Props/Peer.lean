/-
C107: pooled calls to any server.
-/
import Verif.Spec.Peer
import Verif.Props.System
import Verif.Props.Callee
import Verif.Props.Errors
import Verif.Props.Malformed
import Verif.Props.Once

namespace Htrpc
open Spec Http

theorem reads_unique {m : Method} {bytes : Bytes} {c c' : Nat} {hs hs' : List Header} {b b' rest rest' : Bytes}
    (h : Reads m bytes c hs b rest) (h' : Reads m bytes c' hs' b' rest') :
    c = c' ∧ hs = hs' ∧ b = b' ∧ rest = rest' := by
  cases h with
  | head h1 h2 =>
    cases h' with
    | head h1' h2' => rw [h2] at h2'; cases h2'; exact ⟨rfl, rfl, rfl, rfl⟩
    | full h1' => exact absurd h1 h1'
  | full h1 h2 h3 h4 =>
    cases h' with
    | head h1' => exact absurd h1' h1
    | full h1' h2' h3' h4' =>
      rw [h2] at h2'
      cases h2'
      rw [h3] at h3'
      cases h3'
      rw [h4] at h4'
      cases h4'
      exact ⟨rfl, rfl, rfl, rfl⟩

/-- **C107.** Bytes begin with at most one response. -/
theorem C107_one {m : Method} {c c' : Nat} {hs hs' : List Header} {b b' t t' x x' : Bytes}
    (h : ResponseText m c hs b t) (h' : ResponseText m c' hs' b' t') (e : t ++ x = t' ++ x') :
    c = c' ∧ hs = hs' ∧ b = b' ∧ t = t' ∧ x = x' := by
  have h1 := C93_read _ _ _ _ _ x h
  have h2 := C93_read _ _ _ _ _ x' h'
  rw [← e] at h2
  obtain ⟨rfl, rfl, rfl, rfl⟩ := reads_unique h1 h2
  exact ⟨rfl, rfl, rfl, List.append_cancel_right e, rfl⟩

/-- **C107.** So it is clear where the responses to some requests end. -/
theorem C107_where {ms : List Method} {a a' x x' : Bytes} (h : ResponseTexts ms a)
    (h' : ResponseTexts ms a') (e : a ++ x = a' ++ x') : a = a' ∧ x = x' := by
  induction h generalizing a' with
  | nil => cases h'; exact ⟨rfl, e⟩
  | cons h1 _ ih =>
    cases h' with
    | cons h1' h2' =>
      rw [List.append_assoc, List.append_assoc] at e
      obtain ⟨-, -, -, h3, h4⟩ := C107_one h1 h1' e
      subst h3
      obtain ⟨rfl, rfl⟩ := ih h2' h4
      exact ⟨rfl, rfl⟩

/-- What an exchange reads is a response. -/
theorem exchange_text {i : Nat} {x l : List WireStep} (hx : Exchanged i x) {hs : List Header} {d rest : Bytes}
    (h : ReadsOff hs d (x ++ l) rest) :
    ∃ m c hs' b t d', methods x = [m] ∧ d = t ++ d' ∧ ResponseText m c hs' b t ∧ ReadsOff hs' d' l rest ∧
      .head i c hs' ∈ x ∧ (m ≠ .head → .body i b ∈ x) := by
  cases hx with
  | @head r c hs' hm =>
    cases h with | sends h => cases h with | sent h => cases h with | head h1 h =>
    obtain ⟨t, h2, h3⟩ := C93_only r.method _ _ _ _ _ (.head hm h1)
    exact ⟨r.method, c, hs', [], t, _, rfl, h2, h3, h, by simp, fun h => absurd hm h⟩
  | @full r c hs' b hm =>
    cases h with | sends h => cases h with | sent h => cases h with | head h1 h =>
    cases h with | body h2 h3 h =>
    obtain ⟨t, h4, h5⟩ := C93_only r.method _ _ _ _ _ (.full hm h1 h2 h3)
    exact ⟨r.method, c, hs', b, t, _, rfl, h4, h5, h, by simp, fun _ => by simp⟩

theorem methods_append (a b : List WireStep) : methods (a ++ b) = methods a ++ methods b := by
  simp [methods, requestsOn]

theorem turns_text {xs : List (List WireStep)} (hxs : ∀ x ∈ xs, ∃ i, Exchanged i x) {l : List WireStep}
    {hs : List Header} {d rest : Bytes} (h : ReadsOff hs d (xs.flatten ++ l) rest) :
    ∃ a d' hs', d = a ++ d' ∧ ResponseTexts (methods xs.flatten) a ∧ ReadsOff hs' d' l rest := by
  induction xs generalizing hs d with
  | nil => exact ⟨[], d, hs, rfl, .nil, h⟩
  | cons x xs ih =>
    obtain ⟨i, hx⟩ := hxs x (List.mem_cons_self ..)
    rw [List.flatten_cons, List.append_assoc] at h
    obtain ⟨m, c, hs', b, t, d', h1, rfl, h2, h3, -, -⟩ := exchange_text hx h
    obtain ⟨a, d'', hs'', rfl, h4, h5⟩ := ih (fun y hy => hxs y (List.mem_cons_of_mem _ hy)) h3
    refine ⟨t ++ a, d'', hs'', by rw [List.append_assoc], ?_, h5⟩
    rw [List.flatten_cons, methods_append, h1]
    exact .cons h2 h4

section
variable [LawfulFloatText]

/-- **C107.** Whatever the servers write on the connections of a pool: a call that completes has sent its
request as the `n`-th one over some connection, what was written there begins with responses to the requests
before, and its result is the meaning of the response that follows. -/
theorem C107_nth_response (size : Nat) (evs : List SysEvent) (d rest : Conn → Bytes)
    (hread : ∀ c, ReadsOff [] (d c) (onConn c (wireLog evs (.new size))) (rest c))
    (i : Nat) (y : PCall) (hp : WellNamed y.proc.resTy) (w : Val) (b : Bytes)
    (hy : (Sys.run evs (.new size)).2.calls[i]? = some y) (hst : y.st = .done w b) :
    ∃ c n r before code hs text more,
      (requestsOn (onConn c (wireLog evs (.new size))))[n]? = some (i, r) ∧ r.method = y.proc.method ∧
      d c = before ++ text ++ more ∧
      ResponseTexts ((methods (onConn c (wireLog evs (.new size)))).take n) before ∧
      ResponseText y.proc.method code hs b text ∧ ReadsResponse code hs true y.proc.resTy w := by
  obtain ⟨c, E, x, l, hl, hE, hx⟩ := C78_own_response size evs i y w b hy hst
  have h := hread c
  rw [hl, List.append_assoc] at h
  obtain ⟨xs, hxs, hex⟩ := hE.exchanges
  rw [hxs] at h
  obtain ⟨a, d', hs0, h1, h2, h3⟩ := turns_text hex h
  obtain ⟨m, code, hs, b', t, d'', h4, h5, h6, -, h7, h8⟩ := exchange_text hx.exchanged h3
  obtain ⟨r, hr⟩ := hx.exchanged.request
  have hm : m = r.method := by
    rw [methods, hr] at h4
    simpa using h4.symm
  have hat : (requestsOn (onConn c (wireLog evs (.new size))))[(requestsOn E).length]? = some (i, r) := by
    rw [hl, requestsOn_append, requestsOn_append, hr]
    simp
  have hmet : r.method = y.proc.method := by
    obtain ⟨p, ad, v, bd, h9, h10⟩ := (C78_own_request size evs).1 c i r (List.mem_of_getElem? hat)
    obtain ⟨v', b', h11⟩ := asked_call size evs i y hy
    rw [h9] at h11
    cases h11
    exact serRequest_method h10
  obtain ⟨r', code', hs', h9, h10, h11, h12⟩ := hx.result
  obtain ⟨rfl, rfl⟩ := h10 _ _ h7
  have hb : b' = b := by
    have hr' : r' = r := by
      have : (i, r') ∈ requestsOn x := requestsOn_mem.2 h9
      rw [hr] at this
      simpa using this
    subst hr'
    rcases h12 with ⟨h12, rfl⟩ | ⟨h12, h13⟩
    · rw [hm] at h6
      cases h6 with
      | head => rfl
      | full h => exact absurd h12 h
    · have h14 := h8 (hm ▸ h12)
      cases hx with
      | head => cases h13; rename_i h; cases h; rename_i h; cases h; rename_i h; cases h
      | full =>
        simpa using h14
  subst hb
  refine ⟨c, (requestsOn E).length, r, a, code, hs, t, d'', hat, hmet, by rw [h1, h5, List.append_assoc], ?_, ?_, ?_⟩
  · rw [hl, methods_append, methods_append, List.append_assoc, List.take_left' (by simp [methods]), hxs]
    exact h2
  · rw [← hmet, ← hm]; exact h6
  · have hn : AsciiNames hs := by
      cases h6 with
      | head _ _ h => exact safe_ascii h.safe
      | full _ _ h => exact safe_ascii h.safe
    exact (C83_response_read _ hp code hs hn).ok_iff h11

/-- **C107.** Nothing tells whether the server wrote that response before it got the request: if, while only
`n` requests have been sent over a connection, there is already one more response on it, then that one is
the answer for whoever sends the next request. -/
theorem C107_early (size : Nat) (evs evs' : List SysEvent) (d rest : Conn → Bytes) (c : Conn)
    (hread : ∀ c, ReadsOff [] (d c) (onConn c (wireLog (evs ++ evs') (.new size))) (rest c))
    (before text more : Bytes) (m : Method) (code : Nat) (hs : List Header) (b : Bytes)
    (hd : before ++ text ++ more <+: d c)
    (hbefore : ResponseTexts (methods (onConn c (wireLog evs (.new size)))) before)
    (htext : ResponseText m code hs b text)
    (i : Nat) (r : Request) (y : PCall) (hp : WellNamed y.proc.resTy) (w : Val) (b' : Bytes)
    (hr : (requestsOn (onConn c (wireLog (evs ++ evs') (.new size))))[(requestsOn (onConn c
      (wireLog evs (.new size)))).length]? = some (i, r)) (hm : r.method = m)
    (hy : (Sys.run (evs ++ evs') (.new size)).2.calls[i]? = some y) (hst : y.st = .done w b') :
    b' = b ∧ ReadsResponse code hs true y.proc.resTy w := by
  obtain ⟨c', n, r', before', code', hs', text', more', h1, h2, h3, h4, h5, h6⟩ :=
    C107_nth_response size (evs ++ evs') d rest hread i y hp w b' hy hst
  obtain ⟨rfl, rfl, rfl⟩ : c' = c ∧ n = (requestsOn (onConn c (wireLog evs (.new size)))).length ∧ r' = r :=
    C90_one_request size (evs ++ evs') _ _ _ _ _ _ _ h1 hr
  have hpre : (methods (onConn c' (wireLog (evs ++ evs') (.new size)))).take
      (requestsOn (onConn c' (wireLog evs (.new size)))).length =
      methods (onConn c' (wireLog evs (.new size))) := by
    rw [wireLog_append, onConn_append, methods_append]
    exact List.take_left' (by rw [methods, List.length_map])
  rw [hpre] at h4
  obtain ⟨z, hz⟩ := hd
  rw [h3, List.append_assoc, List.append_assoc, List.append_assoc] at hz
  obtain ⟨-, h7⟩ := C107_where hbefore h4 hz
  rw [← h2, hm] at h5
  obtain ⟨rfl, rfl, rfl, -⟩ := C107_one htext h5 h7
  exact ⟨rfl, h6⟩

end

theorem readResponseHead_not_more {bs : Bytes} (h : EmptyLine bs) : readResponseHead bs ≠ .more := by
  intro hr
  have := readLines_some (cur := []) h
  rw [readResponseHead] at hr
  cases hl : readLines [] bs with
  | none => rw [hl] at this; cases this
  | some x =>
    rw [hl] at hr
    obtain ⟨ls, rest⟩ := x
    cases ls with
    | nil => cases hr
    | cons l ls =>
      dsimp only at hr
      split at hr <;> cases hr

theorem hear_noResponse {m : Method} {bytes : Bytes} (hno : NoResponse m bytes) (he : EmptyLine bytes) :
    hear m bytes = [.failed] ∨ (m ≠ .head ∧ ∃ c hs, hear m bytes = [.head c hs, .failed]) := by
  rw [hear]
  cases hr : readResponseHead bytes with
  | more => exact absurd hr (readResponseHead_not_more he)
  | bad => exact .inl rfl
  | done x rest =>
    obtain ⟨c, hs⟩ := x
    obtain ⟨l, hb, h3, h4, rfl⟩ := readResponseHead_only hr
    dsimp only
    by_cases hm : m = .head
    · exact absurd ⟨rest, by simp⟩ (hno [] c hs [] _ (.head hm h3 h4))
    · rw [if_neg hm]
      refine .inr ⟨hm, c, hs, ?_⟩
      cases hf : readBody hs with
      | none => rfl
      | some f =>
        obtain ⟨n, hn⟩ := (readBody_iff (safe_ascii h4.safe)).2 f hf
        refine absurd ?_ (hno (List.replicate n 0) c hs ((rest ++ List.replicate n 0).take n) _
          (.full hm h3 h4 (by rw [List.length_take, List.length_append, List.length_replicate,
            Nat.min_eq_left (by omega)]; exact hn)))
        exact ⟨(rest ++ List.replicate n 0).drop n, by simp [List.append_assoc]⟩

/-- **C107.** If what a server writes has an empty line but cannot be continued to a response, then the call
fails with `Other`. -/
theorem C107_no_response [FloatText] (p : Proc) (v : Val) (body : Bytes) (r : Request)
    (hreq : serRequest p.method p.entry v body = .ok r) (bytes : Bytes)
    (hno : NoResponse p.method bytes) (he : EmptyLine bytes) (rs : List IoResult)
    (hrs : rs.filter Happened = .connected :: .written :: hear p.method bytes) :
    (callRun p (.new v body) rs).2 = .failed .other := by
  rw [callRun_skip, hrs]
  rcases hear_noResponse hno he with h | ⟨hm, c, hs, h⟩
  · rw [h]
    simp [callRun, callStep, CallInner.new, hreq]
  · rw [h]
    simp [callRun, callStep, CallInner.new, hreq, hm]

end Htrpc
