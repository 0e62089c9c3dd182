/-
C130: interim responses.
-/
import Mathlib.Data.List.Induction
import Verif.Spec.Interim
import Verif.Props.Peer

namespace Htrpc
open Spec Http

section
variable [LawfulFloatText]

omit [LawfulFloatText] in
theorem reads_final [FloatText] {t : Ty} (ht : FinalOnly t) {c : Nat} {hs : List Header} {whole : Bool}
    {w : Val} (h : ReadsResponse c hs whole t w) : ¬ Interim c := by
  induction h with
  | struct => cases ht
  | map => cases ht
  | innerMap => cases ht
  | newtype _ ih => exact ih ht
  | unit h1 h2 => intro hc; rw [ht _ _ h1 hc] at h2; cases h2
  | newtypeVariant h1 h2 => intro hc; rw [ht _ _ h1 hc] at h2; cases h2
  | structVariant h1 h2 => intro hc; rw [ht _ _ h1 hc] at h2; cases h2

/-- **C130.** If a server sends interim responses first, and the type of the response has no variant for
them, then the call fails, whatever the answer is. -/
theorem C130_fails (p : Proc) (hp : WellNamed p.resTy) (hf : FinalOnly p.resTy) (v : Val) (body : Bytes)
    (r : Request) (hreq : serRequest p.method p.entry v body = .ok r) (c : Nat) (cs : List Nat) (bytes : Bytes)
    (hne : cs ≠ []) (ha : AnswerText p.method (c :: cs) bytes) (rs : List IoResult)
    (hrs : rs.filter Happened = .connected :: .written :: hear p.method bytes) :
    (callRun p (.new v body) rs).2 = .failed .invalid := by
  cases ha with
  | final => exact absurd rfl hne
  | interim hc ht _ =>
    rcases C93_completes p hp v body r hreq _ _ _ _ _ ht rs hrs with ⟨w, -, h⟩ | ⟨h, -⟩
    · exact absurd hc (reads_final hf h)
    · exact h

/-- **C130.** So a call with such a type never completes with anything but the answer: what it completes with
is a response that is not an interim one, and the first that was sent. -/
theorem C130_final (p : Proc) (hp : WellNamed p.resTy) (hf : FinalOnly p.resTy) (v : Val) (body : Bytes)
    (bytes : Bytes) (rs : List IoResult)
    (hrs : rs.filter Happened = .connected :: .written :: hear p.method bytes) (w : Val) (b : Bytes)
    (h : (callRun p (.new v body) rs).2 = .ready w b) :
    ∃ c hs text rest, bytes = text ++ rest ∧ ResponseText p.method c hs b text ∧ ¬ Interim c ∧
      ReadsResponse c hs true p.resTy w := by
  obtain ⟨c, hs, text, rest, h1, h2, h3⟩ := C93_completed p hp v body bytes rs hrs w b h
  exact ⟨c, hs, text, rest, h1, h2, reads_final hf h3, h3⟩

/-- **C130.** But if the type can express an interim response, then the call completes with it, and the answer
is left for the next call on this connection. -/
theorem C130_taken (p : Proc) (hp : WellNamed p.resTy) (v : Val) (body : Bytes) (r : Request)
    (hreq : serRequest p.method p.entry v body = .ok r) (c : Nat) (hs : List Header) (b text final : Bytes)
    (ht : ResponseText p.method c hs b text) (hw : ∃ w, ReadsResponse c hs true p.resTy w)
    (rs : List IoResult)
    (hrs : rs.filter Happened = .connected :: .written :: hear p.method (text ++ final)) :
    (∃ w, (callRun p (.new v body) rs).2 = .ready w b ∧ ReadsResponse c hs true p.resTy w) ∧
      Reads p.method (text ++ final) c hs b final := by
  refine ⟨?_, C93_read _ _ _ _ _ _ ht⟩
  rcases C93_completes p hp v body r hreq _ _ _ _ _ ht rs hrs with h | ⟨-, h⟩
  · exact h
  · obtain ⟨w, hw⟩ := hw
    exact absurd hw (h w)


/-! ### Through a pool -/

/-- When a request is the `n`-th on its connection, the ones before it were sent before. -/
theorem requests_split {c : Conn} {n j : Nat} {r : Request} : ∀ {evs : List SysEvent} {s : Sys},
    (requestsOn (onConn c (wireLog evs s)))[n]? = some (j, r) →
    ∃ pre e post, evs = pre ++ e :: post ∧ wireOf (Sys.run pre s).2 e = some (c, .sends j r) ∧
      ∀ k < n, (requestsOn (onConn c (wireLog pre s)))[k]? = (requestsOn (onConn c (wireLog evs s)))[k]? := by
  intro evs
  induction evs using List.reverseRecOn with
  | nil => intro s h; cases h
  | append_singleton evs e ih =>
    intro s h
    have hw : wireLog (evs ++ [e]) s = wireLog evs s ++ (wireOf (Sys.run evs s).2 e).toList := by
      rw [wireLog_append, wireLog, wireLog, List.append_nil]
    rw [hw, onConn_append, requestsOn_append] at h
    rcases Nat.lt_or_ge n (requestsOn (onConn c (wireLog evs s))).length with hl | hl
    · rw [List.getElem?_append_left hl] at h
      obtain ⟨pre, e', post, rfl, h1, h2⟩ := ih h
      refine ⟨pre, e', post ++ [e], by simp, h1, fun k hk => ?_⟩
      rw [h2 k hk, hw, onConn_append, requestsOn_append, List.getElem?_append_left (by omega)]
    · rw [List.getElem?_append_right hl] at h
      have hm := requestsOn_mem.1 (List.mem_of_getElem? h)
      have hm := onConn_mem.1 hm
      rw [Option.mem_toList] at hm
      have hm' : wireOf (Sys.run evs s).2 e = some (c, .sends j r) := hm
      refine ⟨evs, e, [], rfl, hm', fun k hk => ?_⟩
      have hn : n = (requestsOn (onConn c (wireLog evs s))).length := by
        rw [hm'] at h
        simp only [Option.toList, onConn_one, requestsOn] at h
        rcases Nat.eq_zero_or_pos (n - (requestsOn (onConn c (wireLog evs s))).length) with h0 | h0
        · omega
        · rw [List.getElem?_eq_none (by simpa [requestsOn] using Nat.succ_le_of_lt h0)] at h
          cases h
      rw [hw, onConn_append, requestsOn_append, List.getElem?_append_left (by omega)]

/-- Who sends a request has the connection, and had it before or has just opened it. -/
theorem sends_place (size : Nat) (pre : List SysEvent) (e : SysEvent) (c : Conn) (i : Nat) (r : Request)
    (h : wireOf (Sys.run pre (.new size)).2 e = some (c, .sends i r)) :
    (life c (Sys.run pre (.new size)).1 = some (.call i) ∨ life c (Sys.run pre (.new size)).1 = some .unborn) ∧
      life c (Sys.run (pre ++ [e]) (.new size)).1 = some (.call i) := by
  obtain ⟨xs, -, hpl⟩ := reach_places size pre
  obtain ⟨xs', -, hpl'⟩ := reach_places size (pre ++ [e])
  have hrun : (Sys.run (pre ++ [e]) (.new size)).2 = ((Sys.run pre (.new size)).2.step e).2 := by
    rw [sys_run_append]; rfl
  rw [hrun] at hpl'
  generalize Sys.run pre (.new size) = x at h hpl hrun hpl'
  obtain ⟨log, s⟩ := x
  dsimp only at h hpl hpl' ⊢
  cases e with
  | poll k res =>
    rw [wireOf] at h
    cases hy : s.calls[k]? with
    | none => rw [hy] at h; cases h
    | some y =>
      have hlt : k < s.calls.length := (List.getElem?_eq_some_iff.1 hy).1
      rw [hy] at h
      dsimp only at h
      split at h
      · rename_i inner d hst
        obtain ⟨rfl, rfl⟩ := begins_conn h
        refine ⟨.inl ((hpl.held _ _).2 (by rw [Sys.hold_of hy, hst]; rfl)), (hpl'.held _ _).2 ?_⟩
        rw [begins] at h
        split at h
        · rename_i hc
          simp only [Sys.step, Sys.poll, hy, hst, hc, Sys.settle, Sys.hold_setCall hy]
          simp [upd, holdOf]
        · cases h
      · rename_i inner a hst
        split at h
        · rename_i hres
          subst hres
          obtain ⟨rfl, rfl⟩ := begins_conn h
          refine ⟨.inr ((hpl.unborn _).2 (Nat.le_refl _)), (hpl'.held _ _).2 ?_⟩
          rw [begins] at h
          split at h
          · rename_i hc
            simp only [Sys.step, Sys.poll, hy, hst, hc, Sys.settle]
            have hy' : ({ s with next := s.next + 1 } : Sys).calls[i]? = some y := hy
            rw [Sys.hold_setCall hy']
            simp [upd, holdOf]
          · cases h
        · cases h
      · unfold ioStep at h
        split at h <;> cases h
      · cases h
  | _ => cases h

/-- **C130.** A connection is used again only if the calls before have completed: not one of them failed, was
given up, or is still running. -/
theorem C130_reused (size : Nat) (evs : List SysEvent) (c : Conn) (n n' i j : Nat) (r r' : Request)
    (hi : (requestsOn (onConn c (wireLog evs (.new size))))[n]? = some (i, r))
    (hj : (requestsOn (onConn c (wireLog evs (.new size))))[n']? = some (j, r')) (hlt : n < n') :
    ∃ y v b, (Sys.run evs (.new size)).2.calls[i]? = some y ∧ y.st = .done v b := by
  by_contra hno
  have hret := C52_not_completed size evs i fun y v b hy hst => hno ⟨y, v, b, hy, hst⟩
  have hij : i ≠ j := by
    rintro rfl
    exact absurd (C90_one_request size evs c c n n' i r r' hi hj).2.1 (by omega)
  obtain ⟨pre, e, post, rfl, h1, h2⟩ := requests_split hj
  rw [← h2 n hlt] at hi
  obtain ⟨pre', e', post', rfl, h3, -⟩ := requests_split hi
  have h4 := (sends_place size pre' e' c i r h3).2
  have h5 := (sends_place size _ e c j r' h1).1
  have hl := C46_lives size (pre' ++ e' :: post') c
  rw [sys_run_append] at hret
  rw [show pre' ++ e' :: post' = (pre' ++ [e']) ++ post' by simp, sys_run_append] at h5 hl hret
  dsimp only at h5 hl hret
  generalize (Sys.run post' (Sys.run (pre' ++ [e']) (.new size)).2).1 = l at h5 hl hret
  rw [life_append, h4] at h5 hl
  have hr : ∀ a, .returned i a c ∉ l := by
    intro a ha
    rw [returns, List.filterMap_eq_nil_iff] at hret
    have := hret _ (List.mem_append_left _ (List.mem_append_right _ ha))
    simp at this
  rcases after_call c i l hl hr with ⟨h6, -⟩ | h6
  · rw [h6] at h5
    rcases h5 with h5 | h5
    · cases h5; exact hij rfl
    · cases h5
  · rw [h6] at h5
    rcases h5 with h5 | h5 <;> cases h5

omit [LawfulFloatText] in
theorem responseTexts_snoc {ms : List Method} {a text b : Bytes} {m : Method} {c : Nat} {hs : List Header}
    (h : ResponseTexts ms a) (h' : ResponseText m c hs b text) : ResponseTexts (ms ++ [m]) (a ++ text) := by
  induction h with
  | nil =>
    have := ResponseTexts.cons h' .nil
    rwa [List.append_nil] at this
  | cons h1 _ ih =>
    rw [List.append_assoc]
    exact .cons h1 ih

/-- **C130.** A server behind the connections of a pool answers every request, and sends what interim responses
it likes before. If the types of the responses have no variants for these, then no call gets the answer to
another request: a call that completes has sent the `n`-th request over its connection, the server has
answered it without interim responses, and this is what the call completes with. -/
theorem C130_own_answer (size : Nat) (evs : List SysEvent) (d rest : Conn → Bytes)
    (hread : ∀ c, ReadsOff [] (d c) (onConn c (wireLog evs (.new size))) (rest c))
    (hfinal : ∀ (i : Nat) (y : PCall), (Sys.run evs (.new size)).2.calls[i]? = some y →
      WellNamed y.proc.resTy ∧ FinalOnly y.proc.resTy)
    (answers : Conn → List Bytes)
    (hans : ∀ c, List.Forall₂ (fun m a => ∃ cs, AnswerText m cs a)
      (methods (onConn c (wireLog evs (.new size)))) (answers c))
    (hd : ∀ c, d c <+: (answers c).flatten)
    (i : Nat) (y : PCall) (w : Val) (b : Bytes)
    (hy : (Sys.run evs (.new size)).2.calls[i]? = some y) (hst : y.st = .done w b) :
    ∃ (c : Conn) (n : Nat) (r : Request) (code : Nat) (hs : List Header) (text : Bytes),
      (requestsOn (onConn c (wireLog evs (.new size))))[n]? = some (i, r) ∧
      (answers c)[n]? = some text ∧ ¬ Interim code ∧ ResponseText y.proc.method code hs b text ∧
      ReadsResponse code hs true y.proc.resTy w := by
  have one : ∀ (n : Nat) (c : Conn) (i : Nat) (r : Request) (y : PCall) (w : Val) (b : Bytes),
      (requestsOn (onConn c (wireLog evs (.new size))))[n]? = some (i, r) →
      (Sys.run evs (.new size)).2.calls[i]? = some y → y.st = .done w b →
      ResponseTexts ((methods (onConn c (wireLog evs (.new size)))).take n) ((answers c).take n).flatten →
      ∃ code hs text, (answers c)[n]? = some text ∧ ¬ Interim code ∧ r.method = y.proc.method ∧
        ResponseText y.proc.method code hs b text ∧ ReadsResponse code hs true y.proc.resTy w := by
    intro n c i r y w b hr hy hst hF
    obtain ⟨c', n', r', before, code, hs, text, more, h1, h2, h3, h4, h5, h6⟩ :=
      C107_nth_response size evs d rest hread i y (hfinal i y hy).1 w b hy hst
    obtain ⟨rfl, rfl, rfl⟩ := C90_one_request size evs _ _ _ _ _ _ _ h1 hr
    have hm : (methods (onConn c' (wireLog evs (.new size))))[n']? = some r'.method := by
      rw [methods, List.getElem?_map, h1]; rfl
    have hlen := (hans c').length_eq
    have hn : n' < (answers c').length := by
      rw [← hlen]; exact (List.getElem?_eq_some_iff.1 hm).1
    obtain ⟨cs, ha⟩ : ∃ cs, AnswerText r'.method cs (answers c')[n'] := by
      have := (hans c').get (i := n') (by rw [hlen]; exact hn) hn
      obtain ⟨h7, h8⟩ := List.getElem?_eq_some_iff.1 hm
      simpa [h8] using this
    obtain ⟨z, hz⟩ := hd c'
    have hsplit : (answers c').flatten =
        ((answers c').take n').flatten ++ ((answers c')[n'] ++ ((answers c').drop (n' + 1)).flatten) := by
      rw [← List.flatten_cons, ← List.drop_eq_getElem_cons hn, ← List.flatten_append,
        List.take_append_drop]
    rw [hsplit, h3, List.append_assoc, List.append_assoc] at hz
    obtain ⟨-, h7⟩ := C107_where h4 hF hz
    have hfin := reads_final (hfinal i y hy).2 h6
    rw [h2] at ha
    refine ⟨code, hs, text, ?_, hfin, h2, h5, h6⟩
    rw [List.getElem?_eq_getElem hn]
    generalize (answers c')[n'] = g at ha h7
    cases ha with
    | final _ ht => rw [(C107_one h5 ht h7).2.2.2.1]
    | interim hc ht _ =>
      rw [List.append_assoc] at h7
      obtain ⟨rfl, -⟩ := C107_one h5 ht h7
      exact absurd hc hfin
  have all : ∀ (n : Nat) (c : Conn), n < (requestsOn (onConn c (wireLog evs (.new size)))).length →
      ResponseTexts ((methods (onConn c (wireLog evs (.new size)))).take n) ((answers c).take n).flatten := by
    intro n c hn
    induction n with
    | zero => exact .nil
    | succ n ih =>
      have hF := ih (by omega)
      obtain ⟨y, w, b, hy, hst⟩ := C130_reused size evs c n (n + 1) _ _ _ _
        (List.getElem?_eq_getElem (by omega)) (List.getElem?_eq_getElem hn) (by omega)
      obtain ⟨code, hs, text, h1, -, h2, h3, -⟩ := one n c _ _ y w b
        (List.getElem?_eq_getElem (by omega)) hy hst hF
      rw [List.take_add_one, List.take_add_one, h1, List.flatten_append]
      have hm : (methods (onConn c (wireLog evs (.new size))))[n]? = some y.proc.method := by
        rw [methods, List.getElem?_map, List.getElem?_eq_getElem (by omega), ← h2]; rfl
      rw [hm]
      have := responseTexts_snoc hF h3
      simpa using this
  obtain ⟨c, n, r, -, -, -, -, -, h1, -⟩ :=
    C107_nth_response size evs d rest hread i y (hfinal i y hy).1 w b hy hst
  obtain ⟨code, hs, text, h2, h3, -, h4, h5⟩ := one n c i r y w b h1 hy hst
    (all n c (List.getElem?_eq_some_iff.1 h1).1)
  exact ⟨c, n, r, code, hs, text, h1, h2, h3, h4, h5⟩

end
end Htrpc
