/-
C111: exactly which calls reach their handlers and their callers, on any connection.
-/
import Verif.Props.Once
import Verif.Props.Refused
import Verif.Props.Stream
import Verif.Props.Transparent

set_option linter.unusedSectionVars false

namespace Htrpc
open Spec Http

section
variable [LawfulFloatText] [UrlText] [JsonText]

omit [LawfulFloatText] [UrlText] [JsonText] in
theorem fitting_append_all [MethodNames] {ms ms' : List (ReqHead × Bytes)} {a b : Bytes}
    (h : FittingTexts ms a) (h' : FittingTexts ms' b) : FittingTexts (ms ++ ms') (a ++ b) := by
  induction h with
  | nil => exact h'
  | cons h1 h2 h3 _ ih =>
    have := FittingTexts.cons h1 h2 h3 ih
    simpa using this

/-- What is known of a request for which a handler was called. -/
theorem block_call [Wire] {cfg : ServerCfg} {es : List ConnEvent} {i : Nat} {h : ReqHead}
    {l : List ConnEffect} (hb : (blocks (connLog cfg es))[i]? = some (h, l)) {s : Service} {v w : Val}
    (hc : (s, v, w) ∈ calls l) :
    Judged cfg h (.call s v) ∧ calls l = [(s, v, w)] ∧ bodyUse l = .handed s v w := by
  rcases (transcript cfg es).blocks i h l hb with hx | ⟨hx, -⟩
  all_goals
    generalize hl : ConnEffect.read h :: l = l0 at hx
    cases hx
    all_goals
      cases hl
      simp [calls] at hc
      try
        obtain ⟨rfl, rfl, rfl⟩ := hc
        exact ⟨by assumption, rfl, rfl⟩

section
variable [MethodNames]

/-- What is known of the bytes of a request for which a handler was called. -/
theorem block_message {cfg : ServerCfg} {g : ReadBody} {ms : List (ReqHead × Bytes)} {bytes : Bytes}
    (hms : FittingTexts ms bytes) (x : Bytes) {es : List ConnEvent} :
    letI := serverWire
    arriving es <+: bytes ++ x → ReadsWhole cfg g .new es →
    ∀ {hd l s v w}, (blocks (connLog cfg es))[ms.length]? = some (hd, l) → (s, v, w) ∈ calls l →
      ∃ t b rest, limitHead maxHeadSize maxHeaders x (readHead x) = .done hd (b ++ rest) ∧
        HeadText hd t ∧ BodyLength hd.headers b.length ∧ g s v b w := by
  let := serverWire
  intro harr hw hd l s v w hb hc
  obtain ⟨hj, hc1, hu⟩ := block_call hb hc
  obtain ⟨ms2, k, front, rest, he, hf, hrem⟩ := C106_splits x
  have hk : Splits (bytes ++ x) (ms ++ ms2) k :=
    ⟨bytes ++ front, rest, by rw [he, List.append_assoc], fitting_append_all hms hf, hrem⟩
  obtain ⟨seen, rr, ⟨tail, hseen⟩, hsame, -, hrec⟩ := C106_whatever_arrives cfg g es _ _ k hk harr hw
  have hrb : (received (connLog cfg es))[ms.length]? = some (hd, .handed s v w) := by
    rw [received_blocks, List.getElem?_map, hb, Option.map_some, hu]
  have hrr : rr[ms.length]? = some (hd, .handed s v w) := by
    rcases hrec with hrec | ⟨-, h', -, hrec⟩
    · rw [← hrec]; exact hrb
    · rw [hrec, List.getElem?_append] at hrb
      split at hrb
      · exact hrb
      · rename_i hlt
        cases hi : ms.length - rr.length with
        | zero => rw [hi] at hrb; cases hrb
        | succ _ => rw [hi] at hrb; cases hrb
  obtain ⟨hlt, hget⟩ := List.getElem?_eq_some_iff.1 hrr
  have hlt2 : ms.length < seen.length := hsame.length_eq ▸ hlt
  have hsm := (List.forall₂_iff_get.1 hsame).2 ms.length hlt hlt2
  simp only [List.get_eq_getElem] at hsm
  rw [hget] at hsm
  obtain ⟨hm1, hm2⟩ := hsm
  have hseen' : (ms ++ ms2)[ms.length]? = some seen[ms.length] := by
    rw [← hseen, List.getElem?_append_left hlt2, List.getElem?_eq_getElem hlt2]
  rw [List.getElem?_append_right (Nat.le_refl _), Nat.sub_self] at hseen'
  cases hf with
  | nil => cases hseen'
  | @cons h0 t0 b0 ms3 rest0 k1 k2 k3 k4 =>
    have e0 : (h0, b0) = seen[ms.length] := by
      simpa using hseen'
    rw [← e0] at hm1 hm2
    cases hm1
    have hhead : limitHead maxHeadSize maxHeaders x
        (readHead x) = .done hd (b0 ++ rest0 ++ rest) := by
      have e1 : x = t0 ++ (b0 ++ rest0 ++ rest) := by rw [he]; simp
      rw [e1]
      refine limitHead_done.2 ⟨headText_read k1 _, ?_, k2.2⟩
      rw [List.length_append, Nat.add_sub_cancel]
      exact k2.1
    exact ⟨t0, b0, rest0 ++ rest, by rw [hhead, List.append_assoc], k1, k3, hm2⟩

/-- **C111.** Let a client send a request without NaN for a service on a connection, after any complete
requests. Whatever it sends afterwards, and however much of all this has arrived: if the handler of the
service has been called with the value of the request, then it is a struct, possibly inside of newtypes,
whose path, query and headers can be carried over HTTP, no constant in front of a variable takes the path
away, and the server has room for its head. And the handler has been called only once for it, with its
body. -/
theorem C111_called_only (cfg : ServerCfg) (g : ReadBody) (ms : List (ReqHead × Bytes)) (bytes : Bytes)
    (hms : FittingTexts ms bytes) (s : Service) (hreg : s.reg ∈ table cfg)
    (hpc : PlainConsts s.entry) (v : Val) (ht : HasTy v s.reqTy) (hty : RequestTy s.reqTy)
    (hte : ∀ ts u, StructOf s.reqTy ts → ts.lookup "header".toList = some u →
      "transfer-encoding".toList ∉ (names u).map lowerText) (hn : ¬ HasNaN v)
    (body : Bytes) (r : Request) (hr : serRequest s.method s.entry v body = .ok r) (more : Bytes)
    (es : List ConnEvent) :
    letI := serverWire
    arriving es <+: bytes ++ (writeRequest r ++ more) → ReadsWhole cfg g .new es →
    ∀ hd l w, (blocks (connLog cfg es))[ms.length]? = some (hd, l) →
      (s, v, w) ∈ calls l →
      ((∃ ss, RequestIntact s.entry v s.reqTy ss ∧
          ¬ Shadowed (table cfg) s.entry ((instantiate s.entry ss).map asSegment)) ∧
        SafeHeaders r.headers ∧ (writeRequest r).length ≤ 8096 + body.length ∧
        r.headers.length ≤ 32) ∧
      calls l = [(s, v, w)] ∧
      g s v body w := by
  let := serverWire
  intro harr hw hd l w hb hc
  obtain ⟨hj, hc1, -⟩ := block_call hb hc
  obtain ⟨t0, b0, rest, hhead, k1, k3, hm2⟩ := block_message hms _ harr hw hb hc
  obtain ⟨hiff, safe⟩ := request_iff cfg s hreg hpc v ht hty hte hn body r hr more
  have hR := hiff.1 ⟨hd, _, hhead, hj⟩
  refine ⟨hR, hc1, ?_⟩
  obtain ⟨hfr, -, s2⟩ := safe (hR.1.imp fun _ h => h.1) hR.2.1
  have h3 := (limitHead_done.1 hhead).1
  rw [s2] at h3
  obtain ⟨rfl, h4⟩ : (⟨s.method, r.target, r.headers⟩ : ReqHead) = hd ∧
      body ++ more = b0 ++ rest := by
    injection h3 with h5 h6; exact ⟨h5, h6⟩
  have hfit := (C105_client _ _ _ _ _ hr hR.2.1 hfr).1 hR.2.2
  obtain ⟨hb1, hb2⟩ : ∃ t, HeadText ⟨s.method, r.target, r.headers⟩ t ∧
      BodyLength r.headers body.length := by
    generalize writeRequest r = x at hfit
    cases hfit with
    | cons a1 _ a3 _ => exact ⟨_, a1, a3⟩
  have hlen := bodyLength_unique k1 k3 hb2.2
  rw [(List.append_inj h4 hlen.symm).1]
  exact hm2

/-- **C111.** And if everything arrives, and what the connection waits for happens, then the handler is
called exactly if this is so. -/
theorem C111_called (cfg : ServerCfg) (g : ReadBody) (σ : Nat → ConnEvent) (ms : List (ReqHead × Bytes))
    (bytes : Bytes) (hms : FittingTexts ms bytes) (hpath : ∀ m ∈ ms, ¬ Pathless cfg m.1)
    (s : Service) (hreg : s.reg ∈ table cfg)
    (hpc : PlainConsts s.entry) (v : Val) (ht : HasTy v s.reqTy) (hty : RequestTy s.reqTy)
    (hte : ∀ ts u, StructOf s.reqTy ts → ts.lookup "header".toList = some u →
      "transfer-encoding".toList ∉ (names u).map lowerText) (hn : ¬ HasNaN v)
    (body : Bytes) (r : Request) (hr : serRequest s.method s.entry v body = .ok r) :
    letI := serverWire
    (∃ n, bytes ++ writeRequest r <+: arriving (upTo σ n)) →
    (∀ n, ReadsWhole cfg g .new (upTo σ n)) → (∀ n, Smooth cfg .new (upTo σ n)) → Fair cfg σ →
    ((∃ n hd l w, (blocks (connLog cfg (upTo σ n)))[ms.length]? = some (hd, l) ∧
        (s, v, w) ∈ calls l) ↔
      (∃ ss, RequestIntact s.entry v s.reqTy ss ∧
        ¬ Shadowed (table cfg) s.entry ((instantiate s.entry ss).map asSegment)) ∧
      SafeHeaders r.headers ∧ (writeRequest r).length ≤ 8096 + body.length ∧
      r.headers.length ≤ 32) := by
  let := serverWire
  rintro ⟨N, hN⟩ hw hs hf
  constructor
  · rintro ⟨n, hd, l, w, hb, hc⟩
    obtain ⟨b, hb1⟩ := upTo_le σ (Nat.le_max_left n N)
    obtain ⟨b', hb2⟩ := upTo_le σ (Nat.le_max_right n N)
    obtain ⟨x, hx⟩ := hN.trans (hb2 ▸ arriving_prefix (upTo σ N) b')
    have harr : arriving (upTo σ n) <+: bytes ++ (writeRequest r ++ x) := by
      rw [← List.append_assoc, hx, hb1]
      exact arriving_prefix _ _
    exact (C111_called_only cfg g ms bytes hms s hreg hpc v ht hty hte hn body r hr x
      (upTo σ n) harr (hw n) hd l w hb hc).1
  · intro hR
    obtain ⟨hiff, safe⟩ := request_iff cfg s hreg hpc v ht hty hte hn body r hr []
    obtain ⟨hfr, -, s2⟩ := safe (hR.1.imp fun _ h => h.1) hR.2.1
    obtain ⟨hd, rest, h1, hj⟩ := hiff.2 hR
    have h3 := (limitHead_done.1 h1).1
    rw [s2] at h3
    cases h3
    have hfit := fitting_append_all hms ((C105_client _ _ _ _ _ hr hR.2.1 hfr).1 hR.2.2)
    have hpath' : ∀ m ∈ ms ++ [((⟨s.method, r.target, r.headers⟩ : ReqHead), body)], ¬ Pathless cfg m.1 := by
      intro m hm
      rcases List.mem_append.1 hm with hm | hm
      · exact hpath m hm
      · rw [List.mem_singleton.1 hm]
        exact judged_not_pathless hj
    obtain ⟨n, ⟨hrd, hcnt⟩, hsame⟩ := C84_whatever_follows (g := g) cfg σ _ _ (fitting_messages hfit) ⟨N, hN⟩
      hw hs hpath' hf
    have hex := (transcript cfg (upTo σ n)).all_exchanges (by rw [hrd, hcnt]; simp)
    rw [received_blocks, List.forall₂_map_left_iff] at hsame
    have hlt : ms.length < (blocks (connLog cfg (upTo σ n))).length := by
      rw [hsame.length_eq]; simp
    have hi := (List.forall₂_iff_get.1 hsame).2 ms.length hlt (by simp)
    have hx := hex _ _ (List.get_mem _ ⟨ms.length, hlt⟩)
    have hget : (blocks (connLog cfg (upTo σ n)))[ms.length]? =
        some ((blocks (connLog cfg (upTo σ n))).get ⟨ms.length, hlt⟩) := by
      rw [List.get_eq_getElem, List.getElem?_eq_getElem hlt]
    generalize (blocks (connLog cfg (upTo σ n))).get ⟨ms.length, hlt⟩ = y at hi hx hget
    obtain ⟨hd', l⟩ := y
    obtain ⟨e1, -⟩ := hi
    dsimp only at e1 hx
    have e2 : hd' = ⟨s.method, r.target, r.headers⟩ := by rw [e1]; simp
    subst e2
    generalize hl : ConnEffect.read _ :: l = l0 at hx
    cases hx with
    | refused hj' => exact absurd hj' (by intro hj'; exact nomatch judged_unique hj hj')
    | served hj' hst =>
      cases hl
      have := judged_unique hj hj'
      cases this
      exact ⟨n, _, _, _, hget, by simp [calls]; rfl⟩

end

/-- **C111.** Let the handler that is called for a request return a response without NaN, of the type that
the client expects. Whatever else happens on the connection: the call that has sent the request, and
gets what the server has written for it, however long it waits and whatever comes after it, completes with
this response exactly if the response arrives and HTTP can express its headers. And then it gets the body
that the handler has returned (for `HEAD`, none). -/
theorem C111_returned [Wire] (cfg : ServerCfg) (es : List ConnEvent) (hd : ReqHead) (l : List ConnEffect)
    (hb : (hd, l) ∈ blocks (connLog cfg es)) (resp : Val) (out : Bytes) (hret : (resp, out) ∈ returned l)
    (a : Response) (ha : a ∈ answers l) (p : Proc) (hm : p.method = hd.method)
    (ht : HasTy resp p.resTy) (hty : ResponseTy p.resTy) (hn : ¬ HasNaN resp)
    (hte : ∀ ts u, FieldsOf p.resTy ts → ts.lookup "header".toList = some u →
      "transfer-encoding".toList ∉ (names u).map lowerText)
    (phrase : Bytes) (hp : ∀ b ∈ phrase, ValueByte b) (more : Bytes)
    (v : Val) (body : Bytes) (r : Request) (hr : serRequest p.method p.entry v body = .ok r)
    (rs : List IoResult)
    (hrs : rs.filter Happened =
      .connected :: .written :: hear p.method (writeResponse phrase a ++ more)) (b : Bytes) :
    (callRun p (.new v body) rs).2 = .ready resp b ↔
      ResponseIntact false resp a.status.code ∧ SafeHeaders a.headers ∧
        b = if p.method = .head then [] else out := by
  obtain ⟨r', hser, rfl⟩ : ∃ r', serResponse resp out = .ok r' ∧ a = onWire hd r' := by
    obtain ⟨i, hi⟩ := List.mem_iff_getElem?.1 hb
    rcases (transcript cfg es).blocks i hd l hi with hx | ⟨hx, -⟩
    all_goals
      generalize hl : ConnEffect.read hd :: l = l0 at hx
      cases hx
      all_goals
        cases hl
        simp [returned, answers] at hret ha
        try
          obtain ⟨rfl, rfl⟩ := hret
          subst ha
          exact ⟨_, by assumption, rfl⟩
  have hw : (onWire hd r').status = r'.status ∧ (onWire hd r').headers = r'.headers := by
    rw [onWire]; split <;> exact ⟨rfl, rfl⟩
  rw [hw.1, hw.2]
  obtain ⟨only, gets⟩ := response_iff resp p.resTy ht hty hn hte out r' hser phrase hp hd more
  rw [← hm] at gets
  have back : ResponseIntact false resp r'.status.code → SafeHeaders r'.headers →
      (callRun p (.new v body) rs).2 = .ready resp (if p.method = .head then [] else out) := by
    intro h1 h2
    obtain ⟨g1, g2⟩ := gets h1 h2
    rw [callRun_reads hr g2 hrs, g1]
  constructor
  · intro h
    obtain ⟨c, hs, rest, hreads, hde⟩ := callRun_ready hrs h
    have hhead : ∃ rest, readResponseHead (writeResponse phrase (onWire hd r') ++ more) =
        .done (c, hs) rest := by
      cases hreads with
      | head _ h => exact ⟨_, h⟩
      | full _ h => exact ⟨_, h⟩
    obtain ⟨rest', hhead⟩ := hhead
    obtain ⟨h1, h2⟩ := only c hs rest' hhead hde
    rw [back h1 h2] at h
    refine ⟨h1, h2, ?_⟩
    injection h with _ h3
    exact h3.symm
  · rintro ⟨h1, h2, rfl⟩
    exact back h1 h2

end

end Htrpc
