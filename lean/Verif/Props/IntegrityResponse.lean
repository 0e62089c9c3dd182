/-
What arrives of a response is what was sent (C76).
-/
import Verif.Props.IntegrityRequest
import Verif.Props.Response

namespace Htrpc
open Spec

section
variable [LawfulFloatText]

/-- The responses that are sent, their status and the headers made from them. -/
inductive SentResponse : Val → Status → List Header → Prop where
  | unit {n s} : statusFromStr n = some s → SentResponse (.unitVariant n) s []
  | variant {n s h own} : statusFromStr n = some s → requestHeaders h = .ok own →
      SentResponse (.structVariant n (optField "header".toList h)) s own
  | struct {v s h own} : StatusNumber v s.code → requestHeaders h = .ok own →
      SentResponse (.struct (("status".toList, v) :: optField "header".toList h)) s own
  | newtypeStruct {v s own} : SentResponse v s own → SentResponse (.newtypeStruct v) s own
  | newtypeVariant {n v s own} : SentResponse v s own → SentResponse (.newtypeVariant n v) s own

omit [LawfulFloatText] in
/-- Fields that are all headers, with distinct names: at most one. -/
theorem optField_of_headers {fs : List (Str × Val)} (hd : DistinctNames fs)
    (h : ∀ f ∈ fs, f.1 = "header".toList) : ∃ o, fs = optField "header".toList o := by
  match fs with
  | [] => exact ⟨none, rfl⟩
  | [(k, v)] =>
    have : k = "header".toList := h _ (List.mem_cons_self ..)
    exact ⟨some v, by rw [this]; rfl⟩
  | a :: b :: fs =>
    have h1 := h a (List.mem_cons_self ..)
    have h2 := h b (List.mem_cons_of_mem _ (List.mem_cons_self ..))
    unfold DistinctNames at hd
    rw [List.map_cons, List.map_cons, h1, h2] at hd
    simp at hd

theorem serFields_header {s : Status} {o : Option Val} {st : RespSer}
    (h : RespSer.serFields (optField "header".toList o) ⟨false, some (s, [])⟩ = .ok st) :
    ∃ own, requestHeaders o = .ok own ∧ st = ⟨false, some (s, own)⟩ := by
  cases o with
  | none => cases h; exact ⟨[], rfl, rfl⟩
  | some v =>
    simp only [optField, RespSer.serFields, RespSer.serField, RespSer.addHeaders] at h
    rw [if_neg (by decide), if_pos trivial] at h
    rw [requestHeaders]
    cases hh : serHeaders [] v with
    | ok own => rw [hh] at h; cases h; exact ⟨own, rfl, rfl⟩
    | err k => rw [hh] at h; cases h
    | panic => rw [hh] at h; cases h

theorem serVariantFields_header {s : Status} {o : Option Val} {st : RespSer}
    (h : RespSer.serVariantFields (optField "header".toList o) ⟨false, some (s, [])⟩ = .ok st) :
    ∃ own, requestHeaders o = .ok own ∧ st = ⟨false, some (s, own)⟩ := by
  cases o with
  | none => cases h; exact ⟨[], rfl, rfl⟩
  | some v =>
    simp only [optField, RespSer.serVariantFields, RespSer.serVariantField, RespSer.addHeaders] at h
    rw [if_pos trivial] at h
    rw [requestHeaders]
    cases hh : serHeaders [] v with
    | ok own => rw [hh] at h; cases h; exact ⟨own, rfl, rfl⟩
    | err k => rw [hh] at h; cases h
    | panic => rw [hh] at h; cases h

omit [LawfulFloatText] in
theorem startNamed_ok {n : Str} {st : RespSer} (h : RespSer.startNamed n RespSer.new = .ok st) :
    ∃ s, statusFromStr n = some s ∧ st = ⟨false, some (s, [])⟩ := by
  rw [RespSer.startNamed] at h
  cases hs : statusFromStr n with
  | none => rw [hs] at h; cases h
  | some s => rw [hs] at h; cases h; exact ⟨s, rfl, rfl⟩

theorem ser_sent {v : Val} {c : Nat} (ha : Answers v c) {t : Ty} (ht : HasTy v t)
    (hd : ∀ ts, FieldsOf t ts → DistinctNames ts) {st : RespSer}
    (h : RespSer.ser v RespSer.new = .ok st) :
    ∃ s own, st = ⟨false, some (s, own)⟩ ∧ SentResponse v s own := by
  induction ha generalizing t with
  | unit hn =>
    rw [RespSer.ser] at h
    obtain ⟨s, h1, rfl⟩ := startNamed_ok h
    exact ⟨s, [], rfl, .unit h1⟩
  | @variant n c fs hn hf =>
    cases ht with
    | @structVariant _ _ ts _ hmem ht =>
      have hdf : DistinctNames fs := by
        unfold DistinctNames; rw [HasTyFields_names ht]; exact hd _ (.variant hmem)
      obtain ⟨o, rfl⟩ := optField_of_headers hdf hf
      rw [RespSer.ser] at h
      obtain ⟨st', h0, h⟩ := Res.bind_ok_eq h
      obtain ⟨s, h1, rfl⟩ := startNamed_ok h0
      obtain ⟨own, h2, rfl⟩ := serVariantFields_header h
      exact ⟨s, own, rfl, .variant h1 h2⟩
  | @struct v n c fs hv hn hf =>
    cases ht with
    | @struct _ ts ht =>
      have hdf : DistinctNames (("status".toList, v) :: fs) := by
        unfold DistinctNames; rw [HasTyFields_names ht]; exact hd _ (.struct _)
      obtain ⟨o, rfl⟩ := optField_of_headers (List.nodup_cons.1 hdf).2 hf
      rw [RespSer.ser, RespSer.serFields, RespSer.serField, if_pos rfl] at h
      obtain ⟨st', h1, h⟩ := Res.bind_ok_eq h
      obtain ⟨_, -, h1⟩ := Res.bind_ok_eq h1
      obtain ⟨code, hc, h1⟩ := Res.bind_ok_eq h1
      obtain ⟨s, hs, h1⟩ := Res.bind_ok_eq h1
      cases h1
      obtain ⟨own, h2, rfl⟩ := serFields_header h
      have hc' : RespSer.jsonU16 v = some code := by
        cases hj : RespSer.jsonU16 v with
        | none => rw [hj] at hc; cases hc
        | some x => rw [hj] at hc; cases hc; rfl
      have hs' : statusOfCode code = some s := by
        cases hj : statusOfCode code with
        | none => rw [hj] at hs; cases hs
        | some x => rw [hj] at hs; cases hs; rfl
      refine ⟨s, own, rfl, .struct ?_ h2⟩
      rw [(statusOfCode_iff _ _).1 hs']
      exact RespSer.jsonU16_number hc'
  | newtypeStruct _ ih =>
    cases ht with
    | newtypeStruct ht =>
      rw [RespSer.ser] at h
      obtain ⟨s, own, h1, h2⟩ := ih ht (fun ts h => hd ts (.newtypeStruct h)) h
      exact ⟨s, own, h1, .newtypeStruct h2⟩
  | newtypeVariant _ ih =>
    cases ht with
    | newtypeVariant hm ht =>
      rw [RespSer.ser] at h
      obtain ⟨s, own, h1, h2⟩ := ih ht (fun ts h => hd ts (.newtypeVariant hm h)) h
      exact ⟨s, own, h1, .newtypeVariant h2⟩

/-- A response that is sent has a status and headers. -/
theorem serResponse_sent {v : Val} {t : Ty} (ht : HasTy v t)
    (hd : ∀ ts, FieldsOf t ts → DistinctNames ts) {body : Bytes} {r : Response}
    (h : serResponse v body = .ok r) :
    ∃ own, SentResponse v r.status own ∧ r.headers = own ++ [contentLength body] ∧ r.body = body := by
  have ha : Answers v r.status.code := by
    rcases C31_response_sent_or_invalid v body with ⟨r', h1, h2, -⟩ | h1
    · rw [h1] at h; cases h; exact h2
    · rw [h1] at h; cases h
  rw [serResponse] at h
  obtain ⟨st, h1, h⟩ := Res.bind_ok_eq h
  obtain ⟨s, own, rfl, h2⟩ := ser_sent ha ht hd h1
  cases h
  exact ⟨own, h2, rfl, rfl⟩

omit [LawfulFloatText] in
/-- The optional header field of a response. -/
theorem header_field {h : Option Val} {ts : List (Str × Ty)}
    (ht : HasTyFields (optField "header".toList h) ts) :
    ∃ u, ts = optField "header".toList u ∧
      ((h = none ∧ u = none) ∨ ∃ v t, h = some v ∧ u = some t ∧ HasTy v t) := by
  cases h with
  | none => cases ht; exact ⟨none, rfl, .inl ⟨rfl, rfl⟩⟩
  | some v =>
    cases ht with
    | cons h1 h2 => cases h2; exact ⟨some _, rfl, .inr ⟨_, _, rfl, rfl, h1⟩⟩

/-- Where the deserializer of responses begins. -/
def startPhase : Bool → RespPhase
  | true => .status
  | false => .init

theorem arrives_sent {v : Val} {s : Status} {own : List Header} (h : SentResponse v s own)
    {t : Ty} (ht : HasTy v t) (hty : ResponseTy t)
    (hv : ∀ m, Around v m → (m, s.code) ∈ statusTable) (body : Bytes) (hr : AsciiNames own)
    {hs : List Header} (hn : AsciiNames hs)
    (ho : ∀ ts u, FieldsOf t ts → ts.lookup "header".toList = some u →
      askedFor u hs = askedFor u (own ++ [contentLength body]))
    (inside : Bool) {w : Val} (hw : RespDe.de ⟨s.code, hs⟩ t (startPhase inside) = .ok w) :
    ResponseArrives inside v w := by
  induction h generalizing t inside w with
  | @unit n s hs =>
    cases ht with
    | @unitVariant _ vs hm =>
      rw [RespDe.de] at hw
      have hc := (C28_one_to_one.2.2.1 _ _ hs)
      simp only [hc, Res.ofOption, Res.bind_ok] at hw
      rw [deVariant_lookup _ _ _ _ (lookup_of_mem (hty.variants _ (.enum _)) hm),
        RespDe.deContent] at hw
      cases hw
      exact .unit _ _
  | @variant n s h own hs hown =>
    cases ht with
    | @structVariant _ _ ts vs hm ht =>
      rw [RespDe.de] at hw
      have hc := (C28_one_to_one.2.2.1 _ _ hs)
      simp only [hc, Res.ofOption, Res.bind_ok] at hw
      rw [deVariant_lookup _ _ _ _ (lookup_of_mem (hty.variants _ (.enum _)) hm),
        RespDe.deContent, respDe_variant] at hw
      obtain ⟨ws, hws, hw⟩ := Res.bind_ok_eq hw
      cases hw
      obtain ⟨a, ha, hws⟩ := Res.bind_ok_eq hws
      obtain ⟨h', rfl, hh'⟩ := readPart_ok ha
      obtain ⟨u, rfl, hu⟩ := header_field ht
      have hl : (optField "header".toList u).lookup "header".toList = u := by cases u <;> rfl
      rw [hl] at hh'
      refine .variant ?_
      rcases hu with ⟨rfl, rfl⟩ | ⟨v, t, rfl, rfl, hvt⟩
      · rcases hh' with ⟨-, rfl⟩ | ⟨_, _, hx, -⟩
        · cases hws; exact .nil
        · cases hx
      · rcases hh' with ⟨hx, -⟩ | ⟨_, w, hx, rfl, hread⟩
        · cases hx
        · cases hx
          cases hws
          obtain ⟨k1, k2, k3⟩ := hty.header _ t (.variant hm) rfl
          exact .cons (.header (header_part hvt k1 k2 k3 body hown hr hn
            (ho _ t (.variant hm) rfl) hread)) .nil
  | @struct x s h own hx hown =>
    cases ht with
    | @struct _ ts ht =>
      cases ht with
      | @cons _ _ xt _ ts hxt ht =>
        obtain ⟨u, rfl, hu⟩ := header_field ht
        have hl : (("status".toList, xt) :: optField "header".toList u).lookup "header".toList = u := by
          cases u <;> rfl
        have hl' : (("status".toList, xt) :: optField "header".toList u).lookup "status".toList =
          some xt := rfl
        have hpart : ∀ h', ((u = none ∧ h' = none) ∨
            ∃ t w, u = some t ∧ h' = some w ∧ deHeaders t hs = .ok w) →
            (h = none ∧ u = none ∧ h' = none) ∨ ∃ v t w, h = some v ∧ u = some t ∧ h' = some w ∧
              HeaderArrives v w := by
          intro h' hh'
          rcases hu with ⟨rfl, rfl⟩ | ⟨v, t, rfl, rfl, hvt⟩
          · rcases hh' with ⟨-, rfl⟩ | ⟨_, _, hx, -⟩
            · exact .inl ⟨rfl, rfl, rfl⟩
            · cases hx
          · rcases hh' with ⟨hx, -⟩ | ⟨_, w, hx, rfl, hw⟩
            · cases hx
            · cases hx
              obtain ⟨k1, k2, k3⟩ := hty.header _ t (.struct _) rfl
              exact .inr ⟨v, t, w, rfl, rfl, rfl, header_part hvt k1 k2 k3 body hown hr hn
                (ho _ t (.struct _) rfl) hw⟩
        rw [RespDe.de] at hw
        obtain ⟨ws, hws, hw⟩ := Res.bind_ok_eq hw
        cases hw
        refine .struct ?_
        cases inside with
        | false =>
          rw [startPhase, respDe_struct] at hws
          obtain ⟨a, ha, hws⟩ := Res.bind_ok_eq hws
          obtain ⟨b, hb, hws⟩ := Res.bind_ok_eq hws
          obtain ⟨x', rfl, hx'⟩ := readPart_ok ha
          obtain ⟨h', rfl, hh'⟩ := readPart_ok hb
          rw [hl] at hh'
          rw [hl'] at hx'
          rcases hx' with ⟨hx', -⟩ | ⟨_, y, hx', rfl, hy⟩
          · cases hx'
          cases hx'
          have hxy : x = y := by
            cases hx with
            | int it =>
              cases hxt with
              | int _ _ hf =>
                dsimp only at hy
                rw [deU16, if_pos hf] at hy
                cases hy
                rfl
            | some => cases hxt; cases hy
            | newtype => cases hxt; cases hy
          subst hxy
          rcases hpart _ hh' with ⟨rfl, rfl, rfl⟩ | ⟨_, _, _, rfl, rfl, rfl, k⟩ <;> cases hws
          · exact .cons (.status (.same _ _)) .nil
          · exact .cons (.status (.same _ _)) (.cons (.header k) .nil)
        | true =>
          rw [startPhase, respDe_variant] at hws
          obtain ⟨b, hb, hws⟩ := Res.bind_ok_eq hws
          obtain ⟨h', rfl, hh'⟩ := readPart_ok hb
          rw [hl] at hh'
          have hst : ∀ y, missingField xt = .ok y → StatusArrives true x y := by
            intro y hy
            cases hx with
            | int it c => cases hxt; cases hy
            | some => cases hxt; cases hy; exact .lost _
            | newtype => cases hxt; cases hy
          rcases hpart _ hh' with ⟨rfl, rfl, rfl⟩ | ⟨_, _, _, rfl, rfl, rfl, k⟩
          · obtain ⟨y, hy, hws⟩ := Res.bind_ok_eq hws
            cases hws
            exact .cons (.status (hst y hy)) .nil
          · obtain ⟨y, hy, hws⟩ := Res.bind_ok_eq hws
            cases hws
            exact .cons (.status (hst y hy)) (.cons (.header k) .nil)
  | @newtypeStruct v s own _ ih =>
    cases ht with
    | newtypeStruct ht =>
      rw [RespDe.de] at hw
      obtain ⟨x, hx, hw⟩ := Res.bind_ok_eq hw
      cases hw
      exact .newtypeStruct (ih ht ⟨fun _ h => hty.variants _ (.newtypeStruct h),
        fun _ h => hty.fields _ (.newtypeStruct h), fun _ _ h => hty.header _ _ (.newtypeStruct h)⟩
        (fun m h => hv m (.newtypeStruct h)) hr (fun _ _ h => ho _ _ (.newtypeStruct h)) inside hx)
  | @newtypeVariant n v s own _ ih =>
    cases ht with
    | @newtypeVariant _ _ t vs hm ht =>
      rw [RespDe.de] at hw
      have hc : statusCodeToStr s.code = some n := (statusCodeToStr_table _ _).2 (hv n (.here _ _))
      simp only [hc, Res.ofOption, Res.bind_ok] at hw
      rw [deVariant_lookup _ _ _ _ (lookup_of_mem (hty.variants _ (.enum _)) hm),
        RespDe.deContent] at hw
      obtain ⟨x, hx, hw⟩ := Res.bind_ok_eq hw
      cases hw
      exact .newtypeVariant (ih ht ⟨fun _ h => hty.variants _ (.newtypeVariant hm h),
        fun _ h => hty.fields _ (.newtypeVariant hm h),
        fun _ _ h => hty.header _ _ (.newtypeVariant hm h)⟩
        (fun m h => hv m (.newtypeVariant h)) hr (fun _ _ h => ho _ _ (.newtypeVariant hm h)) true hx)

/-- **C76.** Whatever is sent as a response: it goes out with the given body; and if a client that
expects this type accepts its status and its headers, with any other headers that have different names
in any places, then it gets what was sent: the same variant or status, and the headers as in C73. This
needs that newtype variants around the response have the name of its status; inside of them, an optional
status arrives as `None`. -/
theorem C76_response (v : Val) (t : Ty) (ht : HasTy v t) (hty : ResponseTy t) (body : Bytes)
    (r : Response) (hs : serResponse v body = .ok r)
    (hv : ∀ m, Around v m → (m, r.status.code) ∈ statusTable) (hr : AsciiNames r.headers) :
    r.body = body ∧ ∀ hs', AsciiNames hs' →
      (∀ ts u, FieldsOf t ts → ts.lookup "header".toList = some u →
        askedFor u hs' = askedFor u r.headers) →
      ∀ w, deResponse t r.status.code hs' = .ok w → ResponseArrives false v w := by
  obtain ⟨own, h1, h2, h3⟩ := serResponse_sent ht hty.fields hs
  refine ⟨h3, fun hs' hn ho w hw => ?_⟩
  rw [h2] at ho hr
  exact arrives_sent h1 ht hty hv body (fun x hx => hr x (List.mem_append_left _ hx)) hn ho false hw

end

/-- Newtype variants with other names than that of the status cannot be allowed in C76: here the server
sends `NotFound` of a response with the status 200, and the client gets `Ok`. -/
theorem C76_misnamed [FloatText] (body : Bytes) :
    let inner : Ty := .struct [("status".toList, .option (.int .u16))]
    let t : Ty := .enum [("NotFound".toList, .newtype inner), ("Ok".toList, .newtype inner)]
    let v : Val := .newtypeVariant "NotFound".toList
      (.struct [("status".toList, .some (.int .u16 200))])
    HasTy v t ∧ ∃ r, serResponse v body = .ok r ∧
      ∀ h hs, deResponse t r.status.code (h :: hs) =
        .ok (.newtypeVariant "Ok".toList (.struct [("status".toList, .none)])) := by
  refine ⟨.newtypeVariant (List.mem_cons_self ..)
    (.struct (.cons (.some (.int _ _ (by decide))) .nil)), _, rfl, fun h hs => ?_⟩
  rfl

/-! ### Examples -/

section Examples

/-- `C76`: an optional header whose name is not in lower case is lost on the way. -/
example (body : Bytes) : letI := toyFloat
    ∃ r, serResponse (.structVariant "Ok".toList
        [("header".toList, .struct [("ETag".toList, .some (.str ['x']))])]) body = .ok r ∧
      deResponse (.enum [("NotFound".toList, .unit), ("Ok".toList,
        .struct [("header".toList, .struct [("ETag".toList, .option .str)])])]) r.status.code r.headers =
          .ok (.structVariant "Ok".toList [("header".toList, .struct [("ETag".toList, .none)])]) ∧
      ResponseArrives false (.structVariant "Ok".toList
          [("header".toList, .struct [("ETag".toList, .some (.str ['x']))])])
        (.structVariant "Ok".toList [("header".toList, .struct [("ETag".toList, .none)])]) := by
  let := toyFloat
  have h1 : serResponse (.structVariant "Ok".toList
        [("header".toList, .struct [("ETag".toList, .some (.str ['x']))])]) body =
      .ok ⟨.ok, [(utf8 "ETag".toList, utf8 ['x']), contentLength body], body⟩ := rfl
  have hn : AsciiNames [(utf8 "ETag".toList, utf8 ['x']), contentLength body] := by
    intro h hh
    rcases List.mem_cons.1 hh with rfl | hh
    · decide
    · rw [List.mem_singleton.1 hh]
      show ∀ b ∈ utf8 "Content-Length".toList, _
      decide
  have h2 : deResponse (.enum [("NotFound".toList, .unit), ("Ok".toList,
        .struct [("header".toList, .struct [("ETag".toList, .option .str)])])]) 200
        [(utf8 "ETag".toList, utf8 ['x']), contentLength body] =
          .ok (.structVariant "Ok".toList [("header".toList, .struct [("ETag".toList, .none)])]) := by
    have hread : deHeaders (.struct [("ETag".toList, .option .str)])
        [(utf8 "ETag".toList, utf8 ['x']), contentLength body] =
          .ok (.struct [("ETag".toList, .none)]) := by
      rw [deHeaders_struct (by unfold DistinctNames; decide) hn]
      rfl
    have hc : statusCodeToStr 200 = some "Ok".toList := rfl
    rw [deResponse, RespDe.de]
    simp only [hc, Res.ofOption, Res.bind_ok]
    rw [deVariant_lookup _ _ (.struct [("header".toList, .struct [("ETag".toList, .option .str)])]) _
      rfl, RespDe.deContent, respDe_variant, readPart]
    simp only [List.lookup, beq_self_eq_true, hread]
    rfl
  refine ⟨_, h1, h2, (C76_response _ _ (.structVariant (List.mem_cons_of_mem _
    (List.mem_cons_self ..)) (.cons (.struct (.cons (.some (.str _)) .nil)) .nil)) ⟨?_, ?_, ?_⟩ _ _ h1
      ?_ hn).2 _ hn (fun _ _ _ _ => rfl) _ h2⟩
  · intro vs h
    cases h with
    | enum => unfold DistinctNames; decide
    | newtypeVariant h => simp at h
  · intro ts h
    cases h with
    | variant h =>
      simp only [List.mem_cons, Prod.mk.injEq, reduceCtorEq, and_false, VTy.struct.injEq,
        List.not_mem_nil, or_false, false_or] at h
      rw [h.2]
      unfold DistinctNames
      decide
    | newtypeVariant h => simp at h
  · intro ts u h
    cases h with
    | variant h =>
      simp only [List.mem_cons, Prod.mk.injEq, reduceCtorEq, and_false, VTy.struct.injEq,
        List.not_mem_nil, or_false, false_or] at h
      rw [h.2]
      intro h
      cases h
      exact ⟨rfl, by decide, by decide⟩
    | newtypeVariant h => simp at h
  · intro m h
    cases h

end Examples
end Htrpc
