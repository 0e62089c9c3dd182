/-
C131: statuses that forbid a body.
-/
import Verif.Spec.Bodiless
import Verif.Props.Peer

namespace Htrpc
open Spec Http

/-! ### The grammar -/

/-- The head of a response, as one to `HEAD`. -/
theorem rfc_head {m : Method} {c : Nat} {hs : List Header} {b text : Bytes} (h : RfcText m c hs b text) :
    ∃ t, text = t ++ b ∧ ResponseText .head c hs [] t := by
  cases h with
  | bare _ h1 h2 => exact ⟨_, (List.append_nil _).symm, .head rfl h1 h2⟩
  | full _ _ h1 h2 _ => exact ⟨_, rfl, .head rfl h1 h2⟩

theorem length_announced {hs : List Header} (ha : AsciiNames hs) {n n' : Nat} (h : BodyLength hs n)
    (h' : BodyLength hs n') : n = n' := by
  obtain ⟨f, h1, h2⟩ := (readBody_iff ha).1 n h
  obtain ⟨f', h1', h2'⟩ := (readBody_iff ha).1 n' h'
  rw [h1] at h1'
  cases h1'
  by_contra hne
  rcases Nat.lt_or_gt_of_ne hne with hl | hl
  · have := (h2 (List.replicate n 0)).symm.trans (h2' (List.replicate n 0))
    rw [if_pos (by simp), if_neg (by simpa using hl)] at this
    cases this
  · have := (h2 (List.replicate n' 0)).symm.trans (h2' (List.replicate n' 0))
    rw [if_neg (by simpa using hl), if_pos (by simp)] at this
    cases this

/-- **C131.** Bytes begin with at most one response according to these rules. -/
theorem C131_one {m : Method} {c c' : Nat} {hs hs' : List Header} {b b' t t' x x' : Bytes}
    (h : RfcText m c hs b t) (h' : RfcText m c' hs' b' t') (e : t ++ x = t' ++ x') :
    c = c' ∧ hs = hs' ∧ b = b' ∧ t = t' ∧ x = x' := by
  obtain ⟨u, hu, h1⟩ := rfc_head h
  obtain ⟨u', hu', h1'⟩ := rfc_head h'
  have e' := e
  rw [hu, hu', List.append_assoc, List.append_assoc] at e'
  obtain ⟨rfl, rfl, -, rfl, h2⟩ := C107_one h1 h1' e'
  have hb : b.length = b'.length := by
    cases h with
    | bare h3 =>
      cases h' with
      | bare => rfl
      | full h4 h5 => exact absurd h3 (not_or.2 ⟨h4, h5⟩)
    | full h4 h5 _ h6 h7 =>
      cases h' with
      | bare h3 => exact absurd h3 (not_or.2 ⟨h4, h5⟩)
      | full _ _ _ _ h7' => exact length_announced (safe_ascii h6.safe) h7 h7'
  obtain ⟨rfl, rfl⟩ := List.append_inj h2 hb
  exact ⟨rfl, rfl, rfl, hu.trans hu'.symm, rfl⟩

/-- **C131.** So it is clear which responses to some requests there are, and where they end. -/
theorem C131_where {ms : List Method} {l l' : List (Nat × List Header × Bytes)} {t t' x x' : Bytes}
    (h : RfcTexts ms l t) (h' : RfcTexts ms l' t') (e : t ++ x = t' ++ x') : l = l' ∧ t = t' ∧ x = x' := by
  induction h generalizing t' l' with
  | nil => cases h'; exact ⟨rfl, rfl, e⟩
  | cons h1 _ ih =>
    cases h' with
    | cons h1' h2' =>
      rw [List.append_assoc, List.append_assoc] at e
      obtain ⟨rfl, rfl, rfl, rfl, h4⟩ := C131_one h1 h1' e
      obtain ⟨rfl, rfl, rfl⟩ := ih h2' h4
      exact ⟨rfl, rfl, rfl⟩

/-- **C131.** The client knows nothing of these statuses, but mostly this makes no difference: a response is
read as it is meant if its status allows a body, or its headers do not announce one. -/
theorem C131_same {m : Method} {c : Nat} {hs : List Header} {b text : Bytes} (h : RfcText m c hs b text)
    (hb : m = .head ∨ ¬ Bodiless c ∨ BodyLength hs 0) : ResponseText m c hs b text := by
  cases h with
  | bare h1 h2 h3 =>
    by_cases hm : m = .head
    · exact .head hm h2 h3
    · have := ResponseText.full (body := []) hm h2 h3 (by
        rcases hb with hb | hb | hb
        · exact absurd hb hm
        · exact absurd (h1.resolve_left hm) hb
        · exact hb)
      rwa [List.append_nil] at this
  | full h1 _ h2 h3 h4 => exact .full h1 h2 h3 h4

section
variable [LawfulFloatText]

/-! ### The client -/

omit [LawfulFloatText] in
/-- Otherwise the client takes what follows for the body. -/
theorem rfc_swallows {m : Method} (hm : m ≠ .head) {c : Nat} (hc : Bodiless c) {hs : List Header}
    {b text : Bytes} (ht : RfcText m c hs b text) {n : Nat} (hn : BodyLength hs n) {more : Bytes}
    (hl : more.length = n) : b = [] ∧ ResponseText m c hs more (text ++ more) := by
  cases ht with
  | bare _ h2 h3 => exact ⟨rfl, .full hm h2 h3 (by rw [hl]; exact hn)⟩
  | full _ h1 => exact absurd hc h1

/-- **C131.** But if a server announces a body in such a response (the length that it would have otherwise, as
RFC 7230, 3.3.2 allows for 304), then the call waits for it, for ever if nothing else is sent. -/
theorem C131_waits (p : Proc) (v : Val) (body : Bytes) (r : Request)
    (hreq : serRequest p.method p.entry v body = .ok r) (hm : p.method ≠ .head) (c : Nat) (hc : Bodiless c)
    (hs : List Header) (b text : Bytes) (ht : RfcText p.method c hs b text) (n : Nat) (hn : BodyLength hs n)
    (more : Bytes) (hl : more.length < n) (rs : List IoResult)
    (hrs : rs.filter Happened = .connected :: .written :: hear p.method (text ++ more)) :
    ∃ st, (callRun p (.new v body) rs).2 = .pending st := by
  have h := (rfc_swallows hm hc ht hn (more := more ++ List.replicate (n - more.length) 0) (by
    rw [List.length_append, List.length_replicate]; omega)).2
  rw [← List.append_assoc] at h
  exact C93_waits p v body r hreq c hs _ _ _ h (by
    intro h0
    have := congrArg List.length h0
    rw [List.length_replicate, List.length_nil] at this
    omega) rs hrs

/-- **C131.** And if the server sends something else on this connection, the answer to another request, then
the beginning of that becomes the body. -/
theorem C131_swallows (p : Proc) (hp : WellNamed p.resTy) (v : Val) (body : Bytes) (r : Request)
    (hreq : serRequest p.method p.entry v body = .ok r) (hm : p.method ≠ .head) (c : Nat) (hc : Bodiless c)
    (hs : List Header) (b text : Bytes) (ht : RfcText p.method c hs b text) (n : Nat) (hn : BodyLength hs n)
    (more : Bytes) (hl : n ≤ more.length) (rs : List IoResult)
    (hrs : rs.filter Happened = .connected :: .written :: hear p.method (text ++ more)) :
    ((∃ w, (callRun p (.new v body) rs).2 = .ready w (more.take n) ∧ ReadsResponse c hs true p.resTy w) ∨
      ((callRun p (.new v body) rs).2 = .failed .invalid ∧ ∀ w, ¬ ReadsResponse c hs true p.resTy w)) ∧
    Reads p.method (text ++ more) c hs (more.take n) (more.drop n) := by
  have h := (rfc_swallows hm hc ht hn (more := more.take n) (by
    rw [List.length_take]; omega)).2
  have e : text ++ more = text ++ more.take n ++ more.drop n := by
    rw [List.append_assoc, List.take_append_drop]
  rw [e] at hrs ⊢
  exact ⟨C93_completes p hp v body r hreq c hs _ _ _ h rs hrs, C93_read _ _ _ _ _ _ h⟩

/-! ### The server -/

omit [LawfulFloatText] in
theorem response_rfc {m : Method} {c : Nat} {hs : List Header} {b text : Bytes} (h : ResponseText m c hs b text)
    (hb : Bodiless c → b = []) : RfcText m c hs b text := by
  cases h with
  | head h1 h2 h3 => exact .bare (.inl h1) h2 h3
  | full h1 h2 h3 h4 =>
    by_cases hc : Bodiless c
    · rw [hb hc, List.append_nil]
      exact .bare (.inr hc) h2 h3
    · exact .full h1 hc h2 h3 h4

omit [LawfulFloatText] in
theorem response_rfc_bare {m : Method} {c : Nat} {hs : List Header} {b text : Bytes}
    (h : ResponseText m c hs b text) (hc : Bodiless c) : ∃ t, text = t ++ b ∧ RfcText m c hs [] t := by
  cases h with
  | head h1 h2 h3 => exact ⟨_, (List.append_nil _).symm, .bare (.inl h1) h2 h3⟩
  | full h1 h2 h3 h4 => exact ⟨_, rfl, .bare (.inr hc) h2 h3⟩

omit [LawfulFloatText] in
theorem readsAll_rfc {ms : List Method} {d rest : Bytes} {l : List (Nat × List Header × Bytes)}
    (h : ReadsAll ms d l rest) (hb : ∀ x ∈ l, Bodiless x.1 → x.2.2 = []) :
    ∃ text, d = text ++ rest ∧ RfcTexts ms l text := by
  induction h with
  | nil => exact ⟨[], rfl, .nil⟩
  | cons h1 _ ih =>
    obtain ⟨t, rfl, h2⟩ := C93_only _ _ _ _ _ _ h1
    obtain ⟨u, rfl, h3⟩ := ih fun x hx => hb x (List.mem_cons_of_mem _ hx)
    exact ⟨t ++ u, (List.append_assoc ..).symm, .cons (response_rfc h2 (hb _ List.mem_cons_self)) h3⟩

omit [LawfulFloatText] in
theorem readsAll_left {ms : List Method} {d rest : Bytes} {l l' : List (Nat × List Header × Bytes)} {c : Nat}
    {hs : List Header} {b : Bytes} (h : ReadsAll ms d (l ++ (c, hs, b) :: l') rest)
    (hb : ∀ x ∈ l, Bodiless x.1 → x.2.2 = []) (hc : Bodiless c) :
    ∃ text d', d = text ++ (b ++ d') ∧ RfcTexts (ms.take (l.length + 1)) (l ++ [(c, hs, [])]) text ∧
      ReadsAll (ms.drop (l.length + 1)) d' l' rest := by
  induction l generalizing ms d with
  | nil =>
    cases h with
    | cons h1 h2 =>
      obtain ⟨t, rfl, h3⟩ := C93_only _ _ _ _ _ _ h1
      obtain ⟨u, rfl, h4⟩ := response_rfc_bare h3 hc
      refine ⟨u, _, List.append_assoc .., ?_, h2⟩
      have := RfcTexts.cons h4 .nil
      rwa [List.append_nil] at this
  | cons x l ih =>
    cases h with
    | cons h1 h2 =>
      obtain ⟨t, rfl, h3⟩ := C93_only _ _ _ _ _ _ h1
      obtain ⟨u, d', rfl, h4, h5⟩ := ih h2 fun x hx => hb x (List.mem_cons_of_mem _ hx)
      exact ⟨t ++ u, d', by rw [List.append_assoc], .cons (response_rfc h3 (hb _ List.mem_cons_self)) h4, h5⟩

/-- **C131.** What a server of htrpc writes are responses according to these rules, each as it was answered,
if the handlers return no body with such a status. -/
theorem C131_served [UrlText] [JsonText] [MethodNames] (cfg : ServerCfg) (es : List ConnEvent) (phrase : Status → Bytes)
    (hp : ∀ s, ∀ b ∈ phrase s, ValueByte b) :
    letI := httpWire
    SafelyReturned (connLog cfg es) →
    (∀ a ∈ answers (connLog cfg es), Bodiless a.status.code → a.body = []) →
    RfcTexts (((reads (connLog cfg es)).take (answers (connLog cfg es)).length).map ReqHead.method)
      ((answers (connLog cfg es)).map fun a => (a.status.code, a.headers, a.body))
      (written phrase (answers (connLog cfg es))) := by
  let := httpWire
  intro hsafe hb
  obtain ⟨text, h1, h2⟩ := readsAll_rfc (C88_responses cfg es phrase hp hsafe) (by
    intro x hx hc
    obtain ⟨a, ha, rfl⟩ := List.mem_map.1 hx
    exact hb a ha hc)
  rw [List.append_nil] at h1
  rw [h1]
  exact h2

/-- **C131.** Otherwise readers who know these rules find the body of the first such response where the next
response should begin. -/
theorem C131_left [UrlText] [JsonText] [MethodNames] (cfg : ServerCfg) (es : List ConnEvent) (phrase : Status → Bytes)
    (hp : ∀ s, ∀ b ∈ phrase s, ValueByte b) (pre post : List Response) (a : Response) :
    letI := httpWire
    SafelyReturned (connLog cfg es) → answers (connLog cfg es) = pre ++ a :: post →
    (∀ x ∈ pre, Bodiless x.status.code → x.body = []) → Bodiless a.status.code →
    ∃ text others, written phrase (answers (connLog cfg es)) = text ++ (a.body ++ others) ∧
      RfcTexts (((reads (connLog cfg es)).take (pre.length + 1)).map ReqHead.method)
        (pre.map (fun a => (a.status.code, a.headers, a.body)) ++ [(a.status.code, a.headers, [])]) text ∧
      ReadsAll (((reads (connLog cfg es)).take (answers (connLog cfg es)).length).drop (pre.length + 1) |>.map
        ReqHead.method) others (post.map fun a => (a.status.code, a.headers, a.body)) [] := by
  let := httpWire
  intro hsafe ha hb hc
  have h := C88_responses cfg es phrase hp hsafe
  have hl : (answers (connLog cfg es)).map (fun a => (a.status.code, a.headers, a.body)) =
      pre.map (fun a => (a.status.code, a.headers, a.body)) ++
        (a.status.code, a.headers, a.body) :: post.map fun a => (a.status.code, a.headers, a.body) := by
    rw [ha, List.map_append, List.map_cons]
  rw [hl] at h
  obtain ⟨text, d', h1, h2, h3⟩ := readsAll_left h (by
    intro x hx hc
    obtain ⟨a, ha, rfl⟩ := List.mem_map.1 hx
    exact hb a ha hc) hc
  refine ⟨text, d', h1, ?_, ?_⟩
  · rw [List.length_map, ← List.map_take, List.take_take, Nat.min_eq_left (by rw [ha]; simp)] at h2
    exact h2
  · rw [List.length_map, ← List.map_drop] at h3
    exact h3

omit [LawfulFloatText] in
theorem rfcTexts_snoc {ms : List Method} {l : List (Nat × List Header × Bytes)} {a text b : Bytes} {m : Method}
    {c : Nat} {hs : List Header} (h : RfcTexts ms l a) (h' : RfcText m c hs b text) :
    RfcTexts (ms ++ [m]) (l ++ [(c, hs, b)]) (a ++ text) := by
  induction h with
  | nil =>
    have := RfcTexts.cons h' .nil
    rwa [List.append_nil] at this
  | cons h1 _ ih =>
    rw [List.append_assoc]
    exact .cons h1 ih

/-- **C131.** So if that body is itself a response, they take it for the answer to the next request, whatever
the server has answered to that. -/
theorem C131_injected [UrlText] [JsonText] [MethodNames] (cfg : ServerCfg) (es : List ConnEvent) (phrase : Status → Bytes)
    (hp : ∀ s, ∀ b ∈ phrase s, ValueByte b) (pre post : List Response) (a : Response) (m : Method) (c : Nat)
    (hs : List Header) (b : Bytes) (ht : RfcText m c hs b a.body) :
    letI := httpWire
    SafelyReturned (connLog cfg es) → answers (connLog cfg es) = pre ++ a :: post →
    (∀ x ∈ pre, Bodiless x.status.code → x.body = []) → Bodiless a.status.code →
    ∃ text, text <+: written phrase (answers (connLog cfg es)) ∧
      RfcTexts (((reads (connLog cfg es)).take (pre.length + 1)).map ReqHead.method ++ [m])
        (pre.map (fun a => (a.status.code, a.headers, a.body)) ++ [(a.status.code, a.headers, []), (c, hs, b)])
        text := by
  let := httpWire
  intro hsafe ha hb hc
  obtain ⟨text, others, h1, h2, -⟩ := C131_left cfg es phrase hp pre post a hsafe ha hb hc
  refine ⟨text ++ a.body, ⟨others, by rw [h1, List.append_assoc]⟩, ?_⟩
  have := rfcTexts_snoc h2 ht
  rwa [List.append_assoc] at this

end
end Htrpc
