/-
Which responses can be passed back to the caller (C118).
-/
import Verif.Props.PassOn
import Verif.Props.ExactResponse
import Verif.Spec.PassBack

namespace Htrpc
open Spec

section
variable [LawfulFloatText]

/-- What `SentResponse` describes is sent. -/
theorem sent_serResponse {v : Val} {s : Status} {own : List Header} (h : SentResponse v s own)
    (body : Bytes) : serResponse v body = .ok ⟨s, own ++ [contentLength body], body⟩ := by
  have key : RespSer.ser v RespSer.new = .ok ⟨false, some (s, own)⟩ := by
    induction h with
    | unit hn => rw [RespSer.ser, RespSer.startNamed, hn]; rfl
    | @variant n s h own hn hh =>
      rw [RespSer.ser, RespSer.startNamed, hn]
      cases h with
      | none => cases hh; rfl
      | some w =>
        rw [requestHeaders] at hh
        simp only [RespSer.new, Res.check, Res.ofOption, optField, RespSer.serVariantFields,
          RespSer.serVariantField, RespSer.addHeaders, if_pos, Res.bind_ok, hh]
    | @struct w s h own hw hh =>
      have hj : RespSer.jsonU16 w = some s.code := by
        have hle : s.code ≤ 65535 := by cases s <;> decide
        generalize s.code = c at hw hle
        clear hh
        induction hw with
        | int t c =>
          rw [RespSer.jsonU16, if_pos ⟨Int.natCast_nonneg c, by show (c : Int) ≤ 65535; omega⟩]
          rfl
        | some _ ih => exact ih hle
        | newtype _ ih => exact ih hle
      have hs : statusOfCode s.code = some s := (statusOfCode_iff _ _).2 rfl
      have h1 : RespSer.serField "status".toList w RespSer.new = .ok ⟨false, some (s, [])⟩ := by
        rw [RespSer.serField, if_pos rfl, hj]
        simp only [RespSer.new, Res.check, Res.ofOption, hs, Res.bind_ok]
        rfl
      rw [RespSer.ser, RespSer.serFields, h1, Res.bind_ok]
      cases h with
      | none => cases hh; rfl
      | some w =>
        rw [requestHeaders] at hh
        have h2 : RespSer.serField "header".toList w ⟨false, some (s, [])⟩ =
            .ok ⟨false, some (s, own)⟩ := by
          rw [RespSer.serField, if_neg (by decide), if_pos rfl]
          simp only [RespSer.addHeaders, hh]
          rfl
        rw [optField, RespSer.serFields, h2]
        rfl
    | newtypeStruct _ ih => rw [RespSer.ser]; exact ih
    | newtypeVariant _ ih => rw [RespSer.ser]; exact ih
  rw [serResponse, key]
  rfl

/-- What is sent, and what arrives, for one value of a simple type of headers. -/
theorem simple_header_both {h : Option Val} {th : Option Ty} (h4 : SimpleHeader th)
    (g1 : ∀ t, th = some t → ∃ w, h = some w ∧ HasTy w t) (g2 : th = none → h = none)
    (hn : ∀ w, h = some w → ¬ HasNaN w) :
    (∃ hs, requestHeaders h = .ok hs ∧ AsciiNames hs) ∧
      ((∀ w, h = some w → HeaderIntact w) ↔ ∀ w, h = some w → ¬ HasTrue w) :=
  ⟨simple_header_sent h4 g1 g2, simple_header_intact h4 g1 g2 hn⟩

omit [LawfulFloatText] in
theorem header_opt {fs : List (Str × Val)} {th : Option Ty}
    (hv : HasTyFields fs (optField "header".toList th)) :
    ∃ h, fs = optField "header".toList h ∧ (∀ t, th = some t → ∃ w, h = some w ∧ HasTy w t) ∧
      (th = none → h = none) := by
  cases th with
  | none => cases hv; exact ⟨none, rfl, nofun, fun _ => rfl⟩
  | some t =>
    cases hv with
    | @cons _ w _ _ _ h hs =>
      cases hs
      exact ⟨some w, rfl, fun u hu => by cases hu; exact ⟨_, rfl, h⟩, nofun⟩

omit [LawfulFloatText] in
theorem simpleHeader_names {th : Option Ty} (h : SimpleHeader th) {u : Ty}
    (hl : (optField "header".toList th).lookup "header".toList = some u) :
    isStruct u = true ∧ ((names u).map lowerText).Nodup ∧
      "content-length".toList ∉ (names u).map lowerText := by
  have : th = some u := by rw [← hl]; cases th <;> rfl
  obtain ⟨ts, rfl, hd, hs, hc⟩ := h u this
  have hlow : (names (.struct ts)).map lowerText = ts.map Prod.fst := by
    rw [names, List.map_map]
    exact List.map_congr_left fun f hf => lowerText_lower (hs f hf).2
  rw [hlow]
  exact ⟨rfl, hd, hc⟩

omit [LawfulFloatText] in
theorem simple_responseTy {t : Ty} (h : SimpleResponse t) : ResponseTy t := by
  induction h with
  | @struct t th h =>
    refine ⟨nofun, ?_, ?_⟩
    · intro ts hf
      cases hf
      cases th <;> simp [DistinctNames, optField]
    · intro ts u hf hl
      cases hf
      exact simpleHeader_names h (by rw [← hl]; cases th <;> rfl)
  | @enum vs hd h =>
    refine ⟨?_, ?_, ?_⟩
    · intro ws hw
      cases hw with
      | enum => exact hd
      | newtypeVariant hm => cases h _ hm
    · intro ts hf
      cases hf with
      | variant hm =>
        generalize hx : VTy.struct ts = x at hm
        have := h _ hm
        cases this with
        | unit => cases hx
        | @struct th h => cases hx; cases th <;> simp [DistinctNames, optField]
      | newtypeVariant hm => cases h _ hm
    · intro ts u hf hl
      cases hf with
      | variant hm =>
        generalize hx : VTy.struct ts = x at hm
        have := h _ hm
        cases this with
        | unit => cases hx
        | @struct th h => cases hx; exact simpleHeader_names h hl
      | newtypeVariant hm => cases h _ hm
  | newtype _ ih =>
    refine ⟨?_, ?_, ?_⟩
    · intro vs h; cases h with | newtypeStruct h => exact ih.variants _ h
    · intro ts h; cases h with | newtypeStruct h => exact ih.fields _ h
    · intro ts u h hl; cases h with | newtypeStruct h => exact ih.header _ _ h hl

omit [LawfulFloatText] in
theorem simple_header_wellNamed {th : Option Ty} (h : SimpleHeader th) :
    WellNamedFields (optField "header".toList th) :=
  wellNamedFields_opt fun u hu => by
    obtain ⟨ts, rfl, hd, hs, -⟩ := h u hu
    exact ⟨hd, simple_wellNamedFields fun f hf => (hs f hf).1⟩

omit [LawfulFloatText] in
theorem simpleResponse_wellNamed {t : Ty} (h : SimpleResponse t) : WellNamed t := by
  have hty := simple_responseTy h
  induction h with
  | struct h => exact ⟨hty.fields _ (.struct _), trivial, simple_header_wellNamed h⟩
  | @enum vs hd h =>
    rw [WellNamed]
    have hf : ∀ n ts, (n, VTy.struct ts) ∈ vs → DistinctNames ts := fun n ts hm =>
      hty.fields _ (.variant hm)
    clear hd hty
    induction vs with
    | nil => trivial
    | cons v vs ih =>
      obtain ⟨n, x⟩ := v
      refine ⟨?_, ih (fun v hv => h v (List.mem_cons_of_mem _ hv))
        (fun n ts hm => hf n ts (List.mem_cons_of_mem _ hm))⟩
      have hx := h _ List.mem_cons_self
      cases hx with
      | unit => trivial
      | struct hh => exact ⟨hf _ _ List.mem_cons_self, simple_header_wellNamed hh⟩
  | newtype h ih => exact ih (simple_responseTy h)

omit [LawfulFloatText] in
theorem not_true_fields {n : Str} {h : Option Val} :
    (∀ w, h = some w → ¬ HasTrue w) ↔ ∀ m w, (m, w) ∈ optField n h → ¬ HasTrue w := by
  cases h with
  | none => exact ⟨fun _ => nofun, fun _ => nofun⟩
  | some x =>
    constructor
    · intro h m w hm
      rw [optField, List.mem_singleton] at hm
      cases hm
      exact h _ rfl
    · rintro h w ⟨⟩
      exact h n _ (List.mem_singleton.2 rfl)

/-- A response that is read in a simple type: it is sent with the same status if there is one, and the
condition for its arrival. -/
theorem simple_response {code : Nat} {hs : List Header} {t : Ty} (hty : SimpleResponse t) {v : Val}
    (h : ReadsResponse code hs true t v) (hn : ¬ HasNaN v) :
    (∀ s : Status, s.code = code → ∃ own, SentResponse v s own ∧ AsciiNames own) ∧
      ((∀ s : Status, s.code ≠ code) → ∀ c, ¬ Answers v c) ∧
      (ResponseIntact false v code ↔ ¬ HasTrue v) := by
  induction hty generalizing v with
  | @struct t th hh =>
    cases h with
    | struct _ h =>
      cases h with
      | cons hst hf =>
        obtain ⟨h, rfl, g1, g2⟩ := header_opt (response_fields_typed hf)
        generalize hk : "status".toList = k at hst
        cases hst with
        | header _ => exact absurd hk (by decide)
        | status _ hst =>
        cases hst with
        | int hmin hmax =>
          obtain ⟨⟨own, k1, k2⟩, k3⟩ := simple_header_both hh g1 g2 (fun w hw hx => by
            subst hw
            exact hn (.struct (List.mem_cons_of_mem _ (List.mem_singleton.2 rfl)) hx))
          refine ⟨?_, ?_, ?_⟩
          · rintro s rfl
            exact ⟨own, .struct (.int _ _) k1, k2⟩
          · intro hno c ha
            generalize hk : "status".toList = k at ha
            cases ha with
            | struct hnum htab =>
              cases hnum
              obtain ⟨s, hs, -⟩ := status_of_table htab
              exact hno s hs
          · constructor
            · intro hi ht
              generalize hx : Val.struct _ = x at hi
              cases hi with
              | struct hi =>
                have hx := optField_inj (List.cons.inj (Val.struct.inj hx)).2
                subst hx
                cases ht with
                | struct hm ht =>
                  rcases List.mem_cons.1 hm with hm | hm
                  · cases hm; cases ht
                  · exact not_true_fields.1 (k3.1 hi) _ _ hm ht
              | _ => cases hx
            · intro ht
              refine .struct (k3.2 ((not_true_fields (n := "header".toList)).2 fun m w hm hw => ht ?_))
              exact .struct (List.mem_cons_of_mem _ hm) hw
  | enum hd hvs =>
    cases h with
    | unit htab hl =>
      obtain ⟨s, hs, hf⟩ := status_of_table htab
      refine ⟨?_, fun hno => absurd hs (hno s), iff_of_true (.unit htab) nofun⟩
      rintro s' rfl
      rw [C28_one_to_one.2.2.2 _ _ hs] at hf
      exact ⟨[], .unit hf, nofun⟩
    | newtypeVariant htab hl => exact absurd (hvs _ (mem_of_lookup hl)) nofun
    | @structVariant _ _ n fs ws htab hl _ hf =>
      have hx := hvs _ (mem_of_lookup hl)
      generalize hy : VTy.struct fs = y at hx
      cases hx with
      | unit => cases hy
      | @struct th hh =>
        cases hy
        obtain ⟨h, rfl, g1, g2⟩ := header_opt (response_fields_typed hf)
        obtain ⟨⟨own, k1, k2⟩, k3⟩ := simple_header_both hh g1 g2 (fun w hw hx => by
          subst hw
          exact hn (.structVariant (List.mem_singleton.2 rfl) hx))
        obtain ⟨s, hs, hname⟩ := status_of_table htab
        refine ⟨?_, fun hno => absurd hs (hno s), ?_, ?_⟩
        · rintro s' rfl
          rw [C28_one_to_one.2.2.2 _ _ hs] at hname
          exact ⟨own, .variant hname k1, k2⟩
        · intro hi ht
          generalize hx : Val.structVariant _ _ = x at hi
          cases hi with
          | variant _ hi =>
            have hx := optField_inj (Val.structVariant.inj hx).2
            subst hx
            cases ht with
            | structVariant hm ht => exact not_true_fields.1 (k3.1 hi) _ _ hm ht
          | _ => cases hx
        · intro ht
          exact .variant htab (k3.2 (not_true_fields.2 fun m w hm hw => ht (.structVariant hm hw)))
  | newtype _ ih =>
    cases h with
    | newtype h =>
      obtain ⟨k1, k2, k3⟩ := ih h fun hx => hn (.newtypeStruct hx)
      refine ⟨?_, ?_, ?_⟩
      · intro s hs
        obtain ⟨own, k4, k5⟩ := k1 s hs
        exact ⟨own, .newtypeStruct k4, k5⟩
      · intro hno c ha
        cases ha with | newtypeStruct ha => exact k2 hno c ha
      · constructor
        · intro hi ht
          cases hi with | newtypeStruct hi =>
          cases ht with | newtypeStruct ht => exact k3.1 hi ht
        · intro ht
          exact .newtypeStruct (k3.2 fun hx => ht (.newtypeStruct hx))

theorem passed_back {t : Ty} (hty : SimpleResponse t) {code : Nat} {hs : List Header} {v : Val}
    (hr : ReadsResponse code hs true t v) (hn : ¬ HasNaN v) (body : Bytes) :
    ((∃ n, (n, code) ∈ statusTable) → ∃ r, serResponse v body = .ok r ∧ r.status.code = code ∧
      r.body = body ∧ ∀ hs', hs' ≠ [] → AsciiNames hs' →
        (∀ ts u, FieldsOf t ts → ts.lookup "header".toList = some u →
          askedFor u hs' = askedFor u r.headers) →
        (deResponse t code hs' = .ok v ↔ ¬ HasTrue v)) ∧
    ((∀ n, (n, code) ∉ statusTable) → serResponse v body = .err .invalid) := by
  obtain ⟨k1, k2, k3⟩ := simple_response hty hr hn
  constructor
  · rintro ⟨n, htab⟩
    obtain ⟨s, rfl, -⟩ := status_of_table htab
    obtain ⟨own, h1, h2⟩ := k1 s rfl
    have hser := sent_serResponse h1 body
    refine ⟨_, hser, rfl, rfl, fun hs' hne ha' hsame => ?_⟩
    rw [← k3]
    exact C109_response v t (response_typed hr) (simple_responseTy hty) hn body _ hser
      (Spec.AsciiNames.append h2 (contentLength_ascii body)) hs' hne ha' hsame
  · intro hno
    refine C31_rejected v body (k2 fun s hs => ?_)
    obtain ⟨n, hm⟩ := code_mem_table s
    exact hno n (hs ▸ hm)

/-- **C118.** A gateway whose handler returns what a client has read from a response of another server, in
a type of simple responses: if the status has a name, the response is sent, with the same status, and the
response that arrives is the one that was read if and only if there is no `true` in it. If the status has
no name, the response is not sent. -/
theorem C118_passed_back (t : Ty) (hty : SimpleResponse t) (code : Nat) (hs : List Header)
    (ha : AsciiNames hs) (v : Val) (hv : deResponse t code hs = .ok v) (hn : ¬ HasNaN v) (body : Bytes) :
    ((∃ n, (n, code) ∈ statusTable) → ∃ r, serResponse v body = .ok r ∧ r.status.code = code ∧
      r.body = body ∧ ∀ hs', hs' ≠ [] → AsciiNames hs' →
        (∀ ts u, FieldsOf t ts → ts.lookup "header".toList = some u →
          askedFor u hs' = askedFor u r.headers) →
        (deResponse t code hs' = .ok v ↔ ¬ HasTrue v)) ∧
    ((∀ n, (n, code) ∉ statusTable) → serResponse v body = .err .invalid) :=
  passed_back hty ((C83_response_read t (simpleResponse_wellNamed hty) code hs ha).ok_iff hv) hn body

/-- **C118.** The same for what a call has returned, whatever happened to it: the status is the one of a
response that it got. -/
theorem C118_call_passed_back (p : Proc) (hty : SimpleResponse p.resTy) (v : Val) (body : Bytes)
    (rs : List IoResult) (ha : ∀ code hs, .head code hs ∈ rs → AsciiNames hs) (w : Val) (b : Bytes)
    (h : (callRun p (.new v body) rs).2 = .ready w b) (hn : ¬ HasNaN w) :
    ∃ code hs, .head code hs ∈ rs ∧
      ((∃ n, (n, code) ∈ statusTable) → ∃ r, serResponse w b = .ok r ∧ r.status.code = code ∧
        r.body = b ∧ ∀ hs', hs' ≠ [] → AsciiNames hs' →
          (∀ ts u, FieldsOf p.resTy ts → ts.lookup "header".toList = some u →
            askedFor u hs' = askedFor u r.headers) →
          (deResponse p.resTy code hs' = .ok w ↔ ¬ HasTrue w)) ∧
      ((∀ n, (n, code) ∉ statusTable) → serResponse w b = .err .invalid) := by
  obtain ⟨code, hs, hm, hr⟩ :=
    (C83_completed p (simpleResponse_wellNamed hty) v body rs ha).1 w b h
  exact ⟨code, hs, hm, passed_back hty hr hn b⟩

omit [LawfulFloatText] in
theorem inside_rejected [FloatText] {code : Nat} {hs : List Header} {t : Ty} {v : Val}
    (h : ReadsResponse code hs false t v) (hv : HoldsFields v) (c : Nat) : ¬ Answers v c := by
  intro ha
  induction hv generalizing t with
  | struct fs =>
    cases h with
    | struct _ h =>
      generalize hk : "status".toList = k at ha
      cases ha with
      | struct hnum =>
        subst hk
        generalize hk : "status".toList = k at h
        cases h with
        | cons h =>
          cases h with
          | status hw => cases hw
          | header => exact absurd hk (by decide)
          | other => cases hnum
  | map => cases ha
  | newtypeStruct _ ih =>
    cases ha with | newtypeStruct ha =>
    cases h with | newtype h => exact ih h ha

omit [LawfulFloatText] in
theorem variant_rejected [FloatText] {code : Nat} {hs : List Header} {whole : Bool} {t : Ty} {v : Val}
    (h : ReadsResponse code hs whole t v) (hv : VariantOfFields v) (c : Nat) : ¬ Answers v c := by
  intro ha
  induction hv generalizing whole t with
  | here hv =>
    cases ha with | newtypeVariant ha =>
    cases h with | newtypeVariant _ _ h => exact inside_rejected h hv c ha
  | newtypeStruct _ ih =>
    cases ha with | newtypeStruct ha =>
    cases h with | newtype h => exact ih h ha
  | newtypeVariant _ ih =>
    cases ha with | newtypeVariant ha =>
    cases h with | newtypeVariant _ _ h => exact ih h ha

/-- **C118.** Whatever a call has returned as a newtype variant that contains a struct, in any type: no
handler can return it. -/
theorem C118_not_returned (t : Ty) (ht : WellNamed t) (code : Nat) (hs : List Header)
    (ha : AsciiNames hs) (v : Val) (hv : deResponse t code hs = .ok v) (hf : VariantOfFields v)
    (body : Bytes) : serResponse v body = .err .invalid :=
  C31_rejected v body fun c => variant_rejected ((C83_response_read t ht code hs ha).ok_iff hv) hf c

end

/-! ### Examples -/

namespace PassBackExamples

/-- A status and an optional flag in the headers. -/
def exTy : Ty := .struct [("status".toList, .int .u16),
  ("header".toList, .struct [("x-flag".toList, .option .bool)])]

theorem exTy_simple : SimpleResponse exTy := by
  refine .struct (t := .u16) (th := some _) ?_
  rintro _ ⟨⟩
  refine ⟨_, rfl, List.nodup_singleton _, ?_, by decide⟩
  rintro _ (_ | ⟨_, ⟨⟩⟩)
  exact ⟨.option (.scalar rfl), by decide⟩

def exVal (c : Nat) (v : Val) : Val := .struct [("status".toList, .int .u16 (Int.ofNat c)),
  ("header".toList, .struct [("x-flag".toList, v)])]

theorem exVal_noNaN (c : Nat) {v : Val} (hv : ¬ HasNaN v) : ¬ HasNaN (exVal c v) := by
  intro h
  cases h with
  | here h => cases h
  | struct hm h =>
    rcases hm with _ | ⟨_, _ | ⟨_, ⟨⟩⟩⟩
    · cases h with
      | here h => cases h
    · cases h with
      | here h => cases h
      | struct hm h =>
        rcases hm with _ | ⟨_, ⟨⟩⟩
        exact hv h

theorem none_noNaN : ¬ HasNaN .none := by
  intro h
  cases h with
  | here h => cases h

theorem flag_noNaN (b : Bool) : ¬ HasNaN (.some (.bool b)) := by
  intro h
  cases h with
  | here h => cases h with | some h => cases h
  | some h => cases h with | here h => cases h

/-- The header `X-Flag: true`. -/
def exFlag : List Header := [(utf8 "X-Flag".toList, utf8 "true".toList)]

theorem exRead (c : Nat) (hc : c < 65536) : letI := toyFloat
    deResponse exTy c exFlag = .ok (exVal c (.some (.bool true))) ∧
      deResponse exTy c [(utf8 "Host".toList, [])] = .ok (exVal c .none) := by
  let := toyFloat
  have hw := simpleResponse_wellNamed exTy_simple
  have hm : Mapless exTy := by simp [exTy, Mapless, MaplessFields]
  constructor
  · refine (C83_response_iff exTy hw hm c _ (by unfold AsciiNames exFlag; decide) _).2 ?_
    exact .struct (.inl (by decide)) (.cons (.status rfl (.int (by show (0 : Int) ≤ c; omega)
      (by show (c : Int) ≤ 65535; omega))) (.cons (.header (.struct (by decide))) .nil))
  · refine (C83_response_iff exTy hw hm c _ (by unfold AsciiNames; decide) _).2 ?_
    exact .struct (.inl (by decide)) (.cons (.status rfl (.int (by show (0 : Int) ≤ c; omega)
      (by show (c : Int) ≤ 65535; omega))) (.cons (.header (.struct (by decide))) .nil))

/-- `C118_passed_back`: a response with status 404 and the flag is returned with this status, but its
receiver does not get the flag. -/
example (body : Bytes) : letI := toyFloat
    ∃ r, serResponse (exVal 404 (.some (.bool true))) body = .ok r ∧ r.status = .notFound ∧
      deResponse exTy 404 r.headers ≠ .ok (exVal 404 (.some (.bool true))) := by
  let := toyFloat
  obtain ⟨r, h1, h2, -, h3⟩ := (C118_passed_back exTy exTy_simple 404 exFlag
    (by unfold AsciiNames exFlag; decide) _ (exRead 404 (by decide)).1
    (exVal_noNaN _ (flag_noNaN _)) body).1 ⟨"NotFound".toList, by decide⟩
  refine ⟨r, h1, C28_one_to_one.2.2.2 _ _ h2, ?_⟩
  have hr : r.headers = [(utf8 "x-flag".toList, utf8 "ture".toList), contentLength body] := by
    have : serResponse (exVal 404 (.some (.bool true))) body = .ok ⟨.notFound,
      [(utf8 "x-flag".toList, utf8 "ture".toList), contentLength body], body⟩ := rfl
    rw [this] at h1
    cases h1
    rfl
  rw [Ne, h3 r.headers (by rw [hr]; simp) (by
    rw [hr]
    exact Spec.AsciiNames.append (a := [(utf8 "x-flag".toList, utf8 "ture".toList)])
      (by unfold AsciiNames; decide) (contentLength_ascii body)) (fun _ _ _ _ => rfl)]
  intro h
  exact h (.struct (.tail _ (.head _)) (.struct (.head _) (.some .true)))

/-- `C118_passed_back`: a response with status 299, which has no name, is read but cannot be returned. -/
example (body : Bytes) : letI := toyFloat
    deResponse exTy 299 [(utf8 "Host".toList, [])] = .ok (exVal 299 .none) ∧
      serResponse (exVal 299 .none) body = .err .invalid := by
  let := toyFloat
  refine ⟨(exRead 299 (by decide)).2, ?_⟩
  refine (C118_passed_back exTy exTy_simple 299 _ (by unfold AsciiNames; decide) _
    (exRead 299 (by decide)).2 (exVal_noNaN _ none_noNaN) body).2 ?_
  have : ∀ x ∈ statusTable, x.2 ≠ 299 := by decide
  exact fun n hm => this _ hm rfl

/-- `C118_not_returned`: the variant `NotFound` with a struct of headers in it is read, but cannot be
returned. -/
example (body : Bytes) : letI := toyFloat
    deResponse (.enum [("NotFound".toList, .newtype (.struct
        [("header".toList, .struct [("x-flag".toList, .option .bool)])]))]) 404 exFlag =
      .ok (.newtypeVariant "NotFound".toList (.struct
        [("header".toList, .struct [("x-flag".toList, .some (.bool true))])])) ∧
      serResponse (.newtypeVariant "NotFound".toList (.struct
        [("header".toList, .struct [("x-flag".toList, .some (.bool true))])])) body = .err .invalid := by
  let := toyFloat
  have hw : WellNamed (.enum [("NotFound".toList, .newtype (.struct
      [("header".toList, .struct [("x-flag".toList, .option .bool)])]))]) := by
    simp [WellNamed, WellNamedVariants, WellNamedVariant, WellNamedFields, DistinctNames]
  have ha : AsciiNames exFlag := by unfold AsciiNames exFlag; decide
  have hv : deResponse (.enum [("NotFound".toList, .newtype (.struct
      [("header".toList, .struct [("x-flag".toList, .option .bool)])]))]) 404 exFlag =
      .ok (.newtypeVariant "NotFound".toList (.struct
        [("header".toList, .struct [("x-flag".toList, .some (.bool true))])])) := by
    refine (C83_response_iff _ hw (by simp [Mapless, MaplessVariants, MaplessVariant, MaplessFields])
      404 _ ha _).2 ?_
    exact .newtypeVariant (by decide) rfl (.struct (.inl (by decide))
      (.cons (.header (.struct (by decide))) .nil))
  exact ⟨hv, C118_not_returned _ hw 404 exFlag ha _ hv (.here (.struct _)) body⟩

end PassBackExamples

end Htrpc
