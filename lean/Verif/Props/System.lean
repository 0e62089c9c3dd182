/-
Pooled clients and servers together (C79).
-/
import Verif.Lemmas.System
import Verif.Props.IntegrityHttp
import Verif.Props.Turns

set_option linter.unusedSectionVars false

namespace Htrpc
open Spec Http

section
variable [LawfulFloatText] [UrlText] [JsonText] [MethodNames]

/-! ### Lemmas -/

/-- What is in a block is in the log. -/
theorem blocks_sub {log : List ConnEffect} {h : ReqHead} {l : List ConnEffect}
    (hb : (h, l) ∈ blocks log) : ∀ e ∈ l, e ∈ log := by
  induction log with
  | nil => cases hb
  | cons e log ih =>
    have key : (h, l) ∈ blocks log → ∀ x ∈ l, x ∈ e :: log := fun hb x hx =>
      List.mem_cons_of_mem _ (ih hb x hx)
    cases e with
    | read h' =>
      rw [blocks, List.mem_cons] at hb
      rcases hb with hb | hb
      · cases hb
        exact fun x hx => List.mem_cons_of_mem _ ((List.takeWhile_sublist _).mem hx)
      · exact key hb
    | _ => exact key hb

theorem returned_mem {resp : Val} {body : Bytes} {log : List ConnEffect} :
    (resp, body) ∈ returned log ↔ .returned resp body ∈ log := by
  rw [returned, List.mem_filterMap]
  constructor
  · rintro ⟨x, h1, h2⟩
    cases x <;> simp at h2
    obtain ⟨rfl, rfl⟩ := h2
    exact h1
  · intro h
    exact ⟨_, h, rfl⟩

theorem onWire_facts (h : ReqHead) (r : Response) : (onWire h r).headers = r.headers ∧
    (onWire h r).status = r.status ∧ (onWire h r).body = if h.method = .head then [] else r.body := by
  rw [onWire]
  cases h.method <;> simp

/-- The response of htrpc itself can be read. -/
theorem problem_good (h : ReqHead) (s : Status) (p : Problem) :
    Good h.method (onWire h (problemResponse s p)) := by
  obtain ⟨h1, -, h3⟩ := onWire_facts h (problemResponse s p)
  have hne : nameText (utf8 "content-type".toList) ≠ "content-length".toList ∧
      nameText (utf8 "content-type".toList) ≠ "transfer-encoding".toList := by decide
  have hcl := contentLength_safe (JsonText.render p.toJson)
  refine ⟨?_, JsonText.render p.toJson, ⟨?_, ?_, ?_⟩, h3⟩
  · rw [h1]
    intro x hx
    simp only [problemResponse, List.mem_cons, List.not_mem_nil, or_false] at hx
    rcases hx with rfl | rfl
    · refine ⟨⟨by decide, by decide⟩, ⟨by decide, ?_⟩⟩
      intro b hb
      have : b = 97 ∨ b = 110 := by
        rcases hb with hb | hb
        · left; exact (Option.some.inj hb).symm
        · right; exact (Option.some.inj hb).symm
      rcases this with rfl | rfl <;> decide
    · exact hcl
  · rw [h1]
    simp [problemResponse]
  · rw [h1]
    intro x hx hn
    simp only [problemResponse, List.mem_cons, List.not_mem_nil, or_false] at hx
    rcases hx with rfl | rfl
    · exact absurd hn hne.1
    · rfl
  · rw [h1]
    intro x hx
    simp only [problemResponse, List.mem_cons, List.not_mem_nil, or_false] at hx
    rcases hx with rfl | rfl
    · exact hne.2
    · exact show nameText (utf8 "content-length".toList) ≠ "transfer-encoding".toList by decide

theorem served_good {resp : Val} {body : Bytes} {r : Response} (h : ReqHead)
    (hs : serResponse resp body = .ok r) (h1 : SafeHeaders r.headers) (h2 : Framed r.headers body) :
    Good h.method (onWire h r) := by
  obtain ⟨e1, -, e3⟩ := onWire_facts h r
  let := httpWire
  obtain ⟨h4, -⟩ := serResponse_length hs
  refine ⟨by rw [e1]; exact h1, body, by rw [e1]; exact h2, ?_⟩
  rw [e3, h4]

/-- Whatever a server writes can be read. -/
theorem answer_good {cfg : ServerCfg} {es : List ConnEvent} [Wire]
    (hsafe : SafelyReturned (connLog cfg es)) {n : Nat} {h : ReqHead} {l : List ConnEffect}
    (hn : (blocks (connLog cfg es))[n]? = some (h, l)) {a : Response} (ha : a ∈ answers l) :
    Good h.method a := by
  have hret : ∀ {resp body r}, .returned resp body ∈ l → serResponse resp body = .ok r →
      Good h.method (onWire h r) := by
    intro resp body r hr hs
    have hmem := blocks_sub (List.mem_of_getElem? hn) _ hr
    obtain ⟨h1, h2⟩ := hsafe resp body (returned_mem.2 hmem) r hs
    exact served_good h hs h1 h2
  rcases (transcript cfg es).blocks n h l hn with hx | ⟨hx, -⟩
  · generalize hl : ConnEffect.read h :: l = l0 at hx
    cases hx with
    | refused hj' hs =>
      cases hl
      simp only [answers, List.filterMap, List.mem_singleton] at ha
      exact ha ▸ problem_good _ _ _
    | served hj' hs =>
      cases hl
      simp only [answers, List.filterMap, List.mem_singleton] at ha
      exact ha ▸ hret (by simp) hs
  · generalize hl : ConnEffect.read h :: l = l0 at hx
    cases hx with
    | read => cases hl; simp [answers] at ha
    | refusing hj' =>
      cases hl
      simp only [answers, List.filterMap, List.mem_singleton] at ha
      exact ha ▸ problem_good _ _ _
    | invoked hj' => cases hl; simp [answers] at ha
    | returned hj' => cases hl; simp [answers] at ha
    | serving hj' hs =>
      cases hl
      simp only [answers, List.filterMap, List.mem_singleton] at ha
      exact ha ▸ hret (by simp) hs

theorem forall₂_exists {α β : Type} {R : α → β → Prop} {l : List β} (h : ∀ x ∈ l, ∃ c, R c x) :
    ∃ cs, List.Forall₂ R cs l := by
  induction l with
  | nil => exact ⟨[], .nil⟩
  | cons x l ih =>
    obtain ⟨c, hc⟩ := h x List.mem_cons_self
    obtain ⟨cs, hcs⟩ := ih fun y hy => h y (List.mem_cons_of_mem _ hy)
    exact ⟨c :: cs, .cons hc hcs⟩

omit [UrlText] [JsonText] [MethodNames] in
theorem Spec.Completed.exchanged {i : Nat} {p : Proc} {v : Val} {b : Bytes} {x : List WireStep}
    (h : Completed i p v b x) : Exchanged i x := by
  cases h with
  | head hm hd => exact .head hm
  | full hm hd => exact .full hm

omit [UrlText] [JsonText] [MethodNames] in
theorem Spec.Completed.result {i : Nat} {p : Proc} {v : Val} {b : Bytes} {x : List WireStep}
    (h : Completed i p v b x) : ∃ r code hs, .sends i r ∈ x ∧
      (∀ code' hs', .head i code' hs' ∈ x → code' = code ∧ hs' = hs) ∧
      deResponse p.resTy code hs = .ok v ∧
      ((r.method = .head ∧ b = []) ∨ (r.method ≠ .head ∧ .body i b ∈ x)) := by
  cases h with
  | head hm hd => exact ⟨_, _, _, by simp, by simp, hd, .inl ⟨hm, rfl⟩⟩
  | full hm hd => exact ⟨_, _, _, by simp, by simp, hd, .inr ⟨hm, by simp⟩⟩

/-! ### C79 -/

section
variable (size : Nat) (evs : List SysEvent) (types : Nat → List (Str × Ty))
  (hreq : ∀ i p a v b r, (asked evs)[i]? = some (p, a, v, b) →
    serRequest p.method p.entry v b = .ok r →
    ∃ fs, v = .struct fs ∧ Issues ⟨p.method, p.entry, fs, types i, b⟩ r) (c : Conn)
include hreq

/-- The requests on a connection, with what was asked for. -/
theorem conn_issues : ∃ cs, List.Forall₂ (fun (k : Invocation) (z : Nat × Request) =>
      Issues k z.2 ∧ ∃ p a, (asked evs)[z.1]? = some (p, a, .struct k.fields, k.body) ∧
        p.method = k.method ∧ p.entry = k.entry ∧ k.types = types z.1)
    cs (requestsOn (onConn c (wireLog evs (.new size)))) ∧
    List.Forall₂ Issues cs ((requestsOn (onConn c (wireLog evs (.new size)))).map Prod.snd) := by
  have hown := (C78_own_request size evs).1 c
  obtain ⟨cs, hcs⟩ := forall₂_exists (R := fun (k : Invocation) (z : Nat × Request) =>
      Issues k z.2 ∧ ∃ p a, (asked evs)[z.1]? = some (p, a, .struct k.fields, k.body) ∧
        p.method = k.method ∧ p.entry = k.entry ∧ k.types = types z.1)
    (l := requestsOn (onConn c (wireLog evs (.new size)))) (by
      rintro ⟨j, r⟩ hj
      obtain ⟨p, a, v, b, h1, h2⟩ := hown j r hj
      obtain ⟨fs, rfl, h3⟩ := hreq j p a v b r h1 h2
      exact ⟨_, h3, p, a, h1, rfl, rfl, rfl⟩)
  refine ⟨cs, hcs, ?_⟩
  rw [List.forall₂_map_right_iff]
  exact hcs.imp fun _ _ h => h.1

variable (cfg : ServerCfg) (es : List ConnEvent) (phrase : Status → Bytes) (g : ReadBody)

/-- What the server does with the `n`-th request on a connection. -/
theorem conn_block : letI := httpWire
    Linked (onConn c (wireLog evs (.new size))) es (connLog cfg es) phrase →
    ReadsWhole cfg g .new es → ∀ (n : Nat) (h : ReqHead) (l : List ConnEffect),
      (blocks (connLog cfg es))[n]? = some (h, l) →
      ∃ (k : Invocation) (j : Nat) (r : Request),
        (requestsOn (onConn c (wireLog evs (.new size))))[n]? = some (j, r) ∧ r.method = k.method ∧
        (∃ p a, (asked evs)[j]? = some (p, a, .struct k.fields, k.body) ∧
          p.method = k.method ∧ p.entry = k.entry ∧ k.types = types j) ∧
        h = ⟨k.method, r.target, r.headers⟩ ∧
        ∀ s v w, (s, v, w) ∈ calls l → s ∈ cfg.services ∧ s.method = k.method ∧ g s v k.body w ∧
          (s.entry = k.entry → s.reqTy = .struct k.types →
            ∃ ws, v = .struct ws ∧ FieldsArrive PartArrives k.fields ws) := by
  let := httpWire
  intro hlink hread n h l hn
  obtain ⟨cs, hcs, hiss⟩ := conn_issues size evs types hreq c
  have harr := hlink.there
  rw [← List.flatMap_map (f := Prod.snd) (g := writeRequest)] at harr
  obtain ⟨k, r, h1, h2, h3, h4⟩ := C77_requests cfg es cs _ hiss g n h l harr hread hn
  rw [List.getElem?_map] at h2
  obtain ⟨⟨j, r'⟩, h5, h6⟩ := Option.map_eq_some_iff.1 h2
  cases h6
  obtain ⟨hnc, hk⟩ := List.getElem?_eq_some_iff.1 h1
  obtain ⟨hnr, hjr⟩ := List.getElem?_eq_some_iff.1 h5
  have := (List.forall₂_iff_get.1 hcs).2 n hnc hnr
  simp only [List.get_eq_getElem, hk, hjr] at this
  obtain ⟨h6, h7⟩ := this
  obtain ⟨-, hm, -⟩ := C26_request_content_length _ _ _ _ _ h6.sent
  exact ⟨k, j, _, h5, hm, h7, h3, h4⟩

/-- Whatever the server answers on a connection can be read. -/
theorem conn_good : letI := httpWire
    Linked (onConn c (wireLog evs (.new size))) es (connLog cfg es) phrase →
    ReadsWhole cfg g .new es → SafelyReturned (connLog cfg es) →
    ∀ (n : Nat) a j r, (answers (connLog cfg es))[n]? = some a →
      (requestsOn (onConn c (wireLog evs (.new size))))[n]? = some (j, r) → Good r.method a := by
  let := httpWire
  intro hlink hread hret n a j r ha hr
  obtain ⟨h, l, -, h2, h3⟩ := C39_nth_response cfg es n a ha
  obtain ⟨k, j', r', h5, h6, -, h7, -⟩ :=
    conn_block size evs types hreq c cfg es phrase g hlink hread n h l h2
  rw [hr] at h5
  cases h5
  have := answer_good hret h2 (a := a) (by rw [h3]; exact List.mem_singleton.2 rfl)
  rwa [h7, ← h6] at this

/-- What a call has read on its connection is the response to its own request. -/
theorem own_exchange (i : Nat) (E x rest : List WireStep)
    (hl : onConn c (wireLog evs (.new size)) = E ++ x ++ rest) (hE : InTurn E) (hx : Exchanged i x) :
    letI := httpWire
    Linked (onConn c (wireLog evs (.new size))) es (connLog cfg es) phrase →
    ReadsWhole cfg g .new es → SafelyReturned (connLog cfg es) →
    ∃ (p : Proc) (ad : Addr) (fs : List (Str × Val)) (b : Bytes) (n : Nat) (r : Request) (h : ReqHead)
      (l : List ConnEffect) (a : Response), (asked evs)[i]? = some (p, ad, .struct fs, b) ∧
      (requestsOn (onConn c (wireLog evs (.new size))))[n]? = some (i, r) ∧ r.method = p.method ∧
      (blocks (connLog cfg es))[n]? = some (h, l) ∧ h = ⟨p.method, r.target, r.headers⟩ ∧
      (∀ s v u, (s, v, u) ∈ calls l → s ∈ cfg.services ∧ s.method = p.method ∧ g s v b u ∧
        (s.entry = p.entry → s.reqTy = .struct (types i) →
          ∃ ws, v = .struct ws ∧ FieldsArrive PartArrives fs ws)) ∧
      answers l = [a] ∧ Good p.method a ∧ .head i a.status.code a.headers ∈ x ∧
      (∀ b, .body i b ∈ x → b = a.body) ∧
      ∀ resp body, (resp, body) ∈ returned l → a.body = (if p.method = .head then [] else body) ∧
        ∀ t w, deResponse t a.status.code a.headers = .ok w → HasTy resp t → ResponseTy t →
          (∀ m, Around resp m → (m, a.status.code) ∈ statusTable) →
          ResponseArrives false resp w := by
  let := httpWire
  intro hlink hread hret
  obtain ⟨d, left, hd, hoff⟩ := hlink.back
  have hgood := conn_good size evs types hreq c cfg es phrase g hlink hread hret
  rw [hl] at hgood hoff
  obtain ⟨a, r, ha, hr, hhead, hbody⟩ := reads_own hlink.phrases hE hx hgood hd hoff
  rw [← hl] at hr
  obtain ⟨h, l, -, h2, h3⟩ := C39_nth_response cfg es _ a ha
  obtain ⟨k, j', r', h5, h6, ⟨p, ad, h7, h8, h9, h10⟩, h11, h12⟩ :=
    conn_block size evs types hreq c cfg es phrase g hlink hread _ h l h2
  rw [hr] at h5
  cases h5
  have hgd := answer_good hret h2 (a := a) (by rw [h3]; exact List.mem_singleton.2 rfl)
  have hmeth : h.method = p.method := by rw [h11, h8]
  rw [hmeth] at hgd
  refine ⟨p, ad, k.fields, k.body, _, r, h, l, a, h7, hr, h6.trans h8.symm, h2, by rw [h11, h8], ?_, h3,
    hgd, hhead, hbody, ?_⟩
  · rw [h8, h9, ← h10]
    exact h12
  · intro resp body hmem
    obtain ⟨r0, hser, rfl⟩ := block_answered h2 hmem (by rw [h3]; exact List.mem_singleton.2 rfl)
    obtain ⟨w1, w2, w3⟩ := onWire_facts h r0
    obtain ⟨w4, -⟩ := serResponse_length hser
    have hsafe := hret resp body (returned_mem.2
      (blocks_sub (List.mem_of_getElem? h2) _ (returned_mem.1 hmem))) r0 hser
    refine ⟨by rw [w3, hmeth, w4], fun t w e2 hty hrt hv => ?_⟩
    rw [w1, w2] at e2
    rw [w2] at hv
    exact (C76_response resp t hty hrt body r0 hser hv hsafe.1.ascii).2 r0.headers
      hsafe.1.ascii (fun _ _ _ _ => rfl) w e2

end

/-- **C79.** Pooled clients make any calls with requests that HTTP can express, and at the other end of
every connection is a server whose handlers return headers that HTTP can express.  Whatever happens, in
whatever order, and however the connections are reused and the bytes arrive: a call that completes has
sent its request as the `n`-th one over some connection, its result is the `n`-th response of the server
there, and this is the response to its own request.  A handler called for it gets the body and the parts
that were sent (as C77 says), and what the handler has returned is what the call completes with, as C76
says, with its body, which is empty for `HEAD`. -/
theorem C79_own_answer (size : Nat) (evs : List SysEvent) (cfg : Conn → ServerCfg)
    (es : Conn → List ConnEvent) (phrase : Status → Bytes) (types : Nat → List (Str × Ty))
    (g : Conn → ReadBody)
    (hreq : ∀ i p a v b r, (asked evs)[i]? = some (p, a, v, b) →
      serRequest p.method p.entry v b = .ok r →
      ∃ fs, v = .struct fs ∧ Issues ⟨p.method, p.entry, fs, types i, b⟩ r)
    (i : Nat) (y : PCall) (w : Val) (b' : Bytes) :
    letI := httpWire
    (∀ c, Linked (onConn c (wireLog evs (.new size))) (es c) (connLog (cfg c) (es c)) phrase) →
    (∀ c, ReadsWhole (cfg c) (g c) .new (es c)) →
    (∀ c, SafelyReturned (connLog (cfg c) (es c))) →
    (Sys.run evs (.new size)).2.calls[i]? = some y → y.st = .done w b' →
    ∃ (fs : List (Str × Val)) (b : Bytes) (c : Conn) (n : Nat) (r : Request) (h : ReqHead)
      (l : List ConnEffect) (a : Response), (asked evs)[i]? = some (y.proc, y.addr, .struct fs, b) ∧
      (requestsOn (onConn c (wireLog evs (.new size))))[n]? = some (i, r) ∧
      (blocks (connLog (cfg c) (es c)))[n]? = some (h, l) ∧
      h = ⟨y.proc.method, r.target, r.headers⟩ ∧
      (∀ s v u, (s, v, u) ∈ calls l → s ∈ (cfg c).services ∧ s.method = y.proc.method ∧ g c s v b u ∧
        (s.entry = y.proc.entry → s.reqTy = .struct (types i) →
          ∃ ws, v = .struct ws ∧ FieldsArrive PartArrives fs ws)) ∧
      answers l = [a] ∧ deResponse y.proc.resTy a.status.code a.headers = .ok w ∧ b' = a.body ∧
      ∀ resp body, (resp, body) ∈ returned l → b' = (if y.proc.method = .head then [] else body) ∧
        (HasTy resp y.proc.resTy → ResponseTy y.proc.resTy →
          (∀ m, Around resp m → (m, a.status.code) ∈ statusTable) →
          ResponseArrives false resp w) := by
  let := httpWire
  intro hlink hread hret hy hst
  obtain ⟨c, E, x, rest, hl, hE, hx⟩ := C78_own_response size evs i y w b' hy hst
  obtain ⟨p, ad, fs, b, n, r, h, l, a, h1, h2, hrm, h3, h4, h5, h6, hgd, hhead, hbody, h7⟩ :=
    own_exchange size evs types hreq c (cfg c) (es c) phrase (g c) i E x rest hl hE hx.exchanged
      (hlink c) (hread c) (hret c)
  obtain ⟨v, b0, hask⟩ := asked_call size evs i y hy
  rw [hask] at h1
  cases h1
  obtain ⟨r0, code, hs, e0, e1, e2, e3⟩ := hx.result
  have hr0 : r0.method = y.proc.method := by
    obtain ⟨p, a, v, b, h1, h2⟩ := (C78_own_request size evs).1 c i r0 (requestsOn_mem.2 (by
      rw [hl]; exact List.mem_append_left _ (List.mem_append_right _ e0)))
    rw [hask] at h1
    cases h1
    exact (C26_request_content_length _ _ _ _ _ h2).2.1
  rw [hr0] at e3
  obtain ⟨rfl, rfl⟩ := e1 _ _ hhead
  have hab : b' = a.body := by
    rcases e3 with ⟨hm, rfl⟩ | ⟨hm, hb⟩
    · obtain ⟨-, body, -, hb⟩ := hgd
      rw [hb, if_pos hm]
    · exact hbody _ hb
  refine ⟨fs, b, c, n, r, h, l, a, hask, h2, h3, h4, h5, h6, e2, hab, fun resp body hmem => ?_⟩
  obtain ⟨g1, g2⟩ := h7 resp body hmem
  exact ⟨hab.trans g1, fun hty hrt hv => g2 _ _ e2 hty hrt hv⟩

end
end Htrpc
