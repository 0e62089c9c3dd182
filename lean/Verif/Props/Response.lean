/-
Responses: C28 to C31.
-/
import Verif.Lemmas.Status
import Verif.Spec.Response
import Verif.Model.RespDe
import Verif.Props.Request

namespace Htrpc
open Spec

/-! ### C28: status names and codes -/

/-- **C28**: the names which can be sent and their codes are those of the table. -/
theorem C28_sent_names (n : Str) (s : Status) :
    statusFromStr n = some s ↔ (n, s.code) ∈ statusTable :=
  statusFromStr_table n s

/-- **C28**: the codes which are understood and their names are those of the table. -/
theorem C28_received_names (c : Nat) (n : Str) :
    statusCodeToStr c = some n ↔ (n, c) ∈ statusTable :=
  statusCodeToStr_table c n

/-- The code of every status is in the table. -/
theorem code_mem_table (s : Status) : ∃ n, (n, s.code) ∈ statusTable := by
  have : (statusCodeToStr s.code).isSome = true := by cases s <;> rfl
  obtain ⟨n, hn⟩ := Option.isSome_iff_exists.1 this
  exact ⟨n, (statusCodeToStr_table _ _).1 hn⟩

/-- Every code of the table is the code of a status. -/
theorem status_of_table {n : Str} {c : Nat} (h : (n, c) ∈ statusTable) :
    ∃ s : Status, s.code = c ∧ statusFromStr n = some s := by
  have key : ∀ x ∈ statusTable, ∃ s ∈ allStatuses, s.code = x.2 := by decide
  obtain ⟨s, -, hs⟩ := key _ h
  dsimp only at hs
  subst hs
  exact ⟨s, rfl, (statusFromStr_table _ _).2 h⟩

/-- **C28**: names, statuses and codes correspond one to one: every status has exactly one name, by
which it is sent and received. -/
theorem C28_one_to_one :
    (∀ s : Status, ∃ n, statusFromStr n = some s ∧ statusCodeToStr s.code = some n ∧
      ∀ n', statusFromStr n' = some s → n' = n) ∧
    (∀ c n, statusCodeToStr c = some n → ∃ s : Status, statusFromStr n = some s ∧ s.code = c ∧
      statusOfCode c = some s) ∧
    (∀ n s, statusFromStr n = some s → statusCodeToStr s.code = some n) ∧
    (∀ s s' : Status, s.code = s'.code → s = s') := by
  refine ⟨?_, ?_, ?_, ?_⟩
  · intro s
    obtain ⟨n, hn⟩ := code_mem_table s
    refine ⟨n, (statusFromStr_table _ _).2 hn, (statusCodeToStr_table _ _).2 hn, ?_⟩
    intro n' hn'
    rw [statusFromStr_table, ← statusCodeToStr_table] at hn'
    rw [← statusCodeToStr_table] at hn
    rw [hn] at hn'
    exact (Option.some.inj hn').symm
  · intro c n h
    obtain ⟨s, hs, hf⟩ := status_of_table ((statusCodeToStr_table _ _).1 h)
    exact ⟨s, hf, hs, (statusOfCode_iff c s).2 hs⟩
  · intro n s h
    exact (statusCodeToStr_table _ _).2 ((statusFromStr_table _ _).1 h)
  · intro s s' h
    have h1 := (statusOfCode_iff s.code s).2 rfl
    have h2 := (statusOfCode_iff s.code s').2 h.symm
    rw [h1] at h2
    exact Option.some.inj h2

section
variable [FloatText]

/-! ### C31: sending never panics -/

namespace RespSer

/-- The response was started with this status. -/
def Started (s : Status) (st : RespSer) : Prop := st.conn = false ∧ ∃ hs, st.response = some (s, hs)

omit [FloatText] in
theorem startNamed_sat (n : Str) : (startNamed n new).Sat fun st =>
    ∃ s, statusFromStr n = some s ∧ Started s st := by
  rw [startNamed]
  exact Res.sat_check.bind fun _ _ => Res.sat_ofOption.bind fun s hs => ⟨s, hs, rfl, _, rfl⟩

theorem addHeaders_sat {s : Status} {st : RespSer} (v : Val) (h : Started s st) :
    (addHeaders v st).Sat (Started s) := by
  obtain ⟨h1, hs, h2⟩ := h
  rw [addHeaders, h2]
  exact (serHeaders_sat hs v).bind fun hs' _ => ⟨h1, hs', rfl⟩

theorem serFields_sat {s : Status} (fs : List (Str × Val)) {st : RespSer} (h : Started s st) :
    (serFields fs st).Sat fun st' => Started s st' ∧ ∀ f ∈ fs, f.1 = "header".toList := by
  induction fs generalizing st with
  | nil => exact ⟨h, by simp⟩
  | cons f fs ih =>
    obtain ⟨k, v⟩ := f
    rw [serFields]
    by_cases hk : k = "header".toList
    · subst hk
      rw [serField, if_neg (by decide), if_pos rfl, h.1]
      simp only [Bool.not_false, Res.check_true, Res.bind_ok]
      refine (addHeaders_sat v h).bind fun st' h' => (ih h').mono fun st'' h'' => ⟨h''.1, ?_⟩
      intro f hf
      rcases List.mem_cons.1 hf with rfl | hf
      · rfl
      · exact h''.2 f hf
    · rw [serField]
      by_cases hs : k = "status".toList
      · rw [if_pos hs, h.1]; rfl
      · rw [if_neg hs, if_neg hk]; rfl

theorem serVariantFields_sat {s : Status} (fs : List (Str × Val)) {st : RespSer}
    (h : Started s st) : (serVariantFields fs st).Sat fun st' =>
      Started s st' ∧ ∀ f ∈ fs, f.1 = "header".toList := by
  induction fs generalizing st with
  | nil => exact ⟨h, by simp⟩
  | cons f fs ih =>
    obtain ⟨k, v⟩ := f
    rw [serVariantFields]
    by_cases hk : k = "header".toList
    · subst hk
      rw [serVariantField, if_pos rfl]
      refine (addHeaders_sat v h).bind fun st' h' => (ih h').mono fun st'' h'' => ⟨h''.1, ?_⟩
      intro f hf
      rcases List.mem_cons.1 hf with rfl | hf
      · rfl
      · exact h''.2 f hf
    · rw [serVariantField, if_neg hk]; rfl

omit [FloatText] in
theorem jsonU16_number : ∀ {v : Val} {c : Nat}, jsonU16 v = some c → StatusNumber v c
  | .int t i, c, h => by
    rw [jsonU16] at h
    split at h
    · next hi =>
      cases h
      obtain ⟨n, rfl⟩ := Int.eq_ofNat_of_zero_le hi.1
      exact .int t n
    · cases h
  | .some v, c, h => by rw [jsonU16] at h; exact .some (jsonU16_number h)
  | .newtypeStruct v, c, h => by rw [jsonU16] at h; exact .newtype (jsonU16_number h)
  | .bool _, _, h => by cases h
  | .f32 _, _, h => by cases h
  | .f64 _, _, h => by cases h
  | .char _, _, h => by cases h
  | .str _, _, h => by cases h
  | .unitVariant _, _, h => by cases h
  | .bytes _, _, h => by cases h
  | .none, _, h => by cases h
  | .seq _, _, h => by cases h
  | .map _, _, h => by cases h
  | .unit, _, h => by cases h
  | .unitStruct _, _, h => by cases h
  | .tuple _, _, h => by cases h
  | .tupleStruct _, _, h => by cases h
  | .tupleVariant _ _, _, h => by cases h
  | .newtypeVariant _ _, _, h => by cases h
  | .struct _, _, h => by cases h
  | .structVariant _ _, _, h => by cases h

/-- What a serialized value is: nothing that ends in a response, or an answer. -/
theorem ser_sat : ∀ v : Val, (ser v new).Sat fun st =>
    (st.response = none) ∨ ∃ s, Started s st ∧ Answers v s.code
  | .unitVariant n => by
    rw [ser]
    exact (startNamed_sat n).mono fun st ⟨s, h1, h2⟩ =>
      .inr ⟨s, h2, .unit ((statusFromStr_table _ _).1 h1)⟩
  | .structVariant n fs => by
    rw [ser]
    refine (startNamed_sat n).bind fun st ⟨s, h1, h2⟩ => ?_
    exact (serVariantFields_sat fs h2).mono fun st' ⟨h3, h4⟩ =>
      .inr ⟨s, h3, .variant ((statusFromStr_table _ _).1 h1) h4⟩
  | .newtypeStruct v => by
    rw [ser]
    exact (ser_sat v).mono fun st h => h.imp_right fun ⟨s, h1, h2⟩ => ⟨s, h1, .newtypeStruct h2⟩
  | .newtypeVariant n v => by
    rw [ser]
    exact (ser_sat v).mono fun st h => h.imp_right fun ⟨s, h1, h2⟩ => ⟨s, h1, .newtypeVariant h2⟩
  | .struct [] => by rw [ser, serFields]; exact .inl rfl
  | .struct ((k, v) :: fs) => by
    rw [ser, serFields, serField]
    by_cases hk : k = "status".toList
    · subst hk
      rw [if_pos rfl]
      refine Res.Sat.bind (P := fun st => ∃ c s, jsonU16 v = some c ∧ statusOfCode c = some s ∧
        Started s st) ?_ ?_
      · exact Res.sat_check.bind fun _ _ => Res.sat_ofOption.bind fun c hc =>
          Res.sat_ofOption.bind fun s hs => ⟨c, s, hc, hs, rfl, _, rfl⟩
      · rintro st ⟨c, s, h1, h2, h3⟩
        refine (serFields_sat fs h3).mono fun st' ⟨h4, h5⟩ => .inr ⟨s, h4, ?_⟩
        have hc := (statusOfCode_iff c s).1 h2
        subst hc
        obtain ⟨n, hn⟩ := code_mem_table s
        exact .struct (jsonU16_number h1) hn h5
    · rw [if_neg hk]
      by_cases hh : k = "header".toList
      · rw [if_pos hh]; rfl
      · rw [if_neg hh]; rfl
  | .bool _ => rfl
  | .f32 _ => rfl
  | .f64 _ => rfl
  | .char _ => rfl
  | .str _ => rfl
  | .bytes _ => rfl
  | .none => rfl
  | .seq _ => rfl
  | .map _ => rfl
  | .unit => rfl
  | .unitStruct _ => rfl
  | .tuple _ => rfl
  | .tupleStruct _ => rfl
  | .tupleVariant _ _ => rfl
  | .int _ _ => rfl
  | .some _ => rfl

end RespSer

/-- **C31**: a response is sent with exactly one known status, the one its value stands for, or
rejected with `Invalid`; nothing panics. -/
theorem C31_response_sent_or_invalid (v : Val) (body : Bytes) :
    (∃ r, serResponse v body = .ok r ∧ Answers v r.status.code ∧ r.body = body) ∨
      serResponse v body = .err .invalid := by
  have h : (serResponse v body).Sat fun r => Answers v r.status.code ∧ r.body = body := by
    rw [serResponse]
    refine (RespSer.ser_sat v).bind fun st h => ?_
    rw [RespSer.finish]
    rcases h with h | ⟨s, ⟨-, hs, h1⟩, h2⟩
    · rw [h]; rfl
    · rw [h1]; exact ⟨h2, rfl⟩
  cases hr : serResponse v body with
  | ok r => rw [hr] at h; exact .inl ⟨r, rfl, h⟩
  | err k => rw [hr] at h; cases h; exact .inr rfl
  | panic => rw [hr] at h; cases h

omit [FloatText] in
theorem Spec.StatusNumber.unique {v : Val} {c c' : Nat} (h : StatusNumber v c)
    (h' : StatusNumber v c') : c = c' := by
  induction h with
  | int t c =>
    revert h'
    generalize hi : Int.ofNat c = i
    intro h'
    cases h' with
    | int => exact Int.ofNat.inj hi
  | some _ ih => cases h' with | some h' => exact ih h'
  | newtype _ ih => cases h' with | newtype h' => exact ih h'

omit [FloatText] in
/-- A value stands for at most one status. -/
theorem Spec.Answers.unique {v : Val} {c c' : Nat} (h : Answers v c) (h' : Answers v c') :
    c = c' := by
  have table : ∀ {n c c'}, (n, c) ∈ statusTable → (n, c') ∈ statusTable → c = c' := by
    intro n c c' h h'
    obtain ⟨s, rfl, hs⟩ := status_of_table h
    obtain ⟨s', rfl, hs'⟩ := status_of_table h'
    rw [hs] at hs'
    cases hs'
    rfl
  induction h with
  | unit h => cases h' with | unit h' => exact table h h'
  | variant h _ => cases h' with | variant h' _ => exact table h h'
  | struct h _ _ => cases h' with | struct h' _ _ => exact h.unique h'
  | newtypeStruct _ ih => cases h' with | newtypeStruct h' => exact ih h'
  | newtypeVariant _ ih => cases h' with | newtypeVariant h' => exact ih h'

/-- **C31**: a header before the status, a field that is neither, an unknown status name and an
unknown status code are all rejected with `Invalid`. -/
theorem C31_rejected (v : Val) (body : Bytes) (h : ∀ c, ¬ Answers v c) :
    serResponse v body = .err .invalid := by
  rcases C31_response_sent_or_invalid v body with ⟨r, -, h1, -⟩ | h1
  · exact absurd h1 (h _)
  · exact h1

/-- The cases named in **C31**. -/
theorem C31_cases (body : Bytes) :
    (∀ v fs, serResponse (.struct (("header".toList, v) :: fs)) body = .err .invalid) ∧
    (∀ fs, (∃ f ∈ fs, f.1 ≠ "status".toList ∧ f.1 ≠ "header".toList) →
      serResponse (.struct fs) body = .err .invalid) ∧
    (∀ n fs, (∀ c, (n, c) ∉ statusTable) →
      serResponse (.unitVariant n) body = .err .invalid ∧
      serResponse (.structVariant n fs) body = .err .invalid) ∧
    (∀ v c fs, StatusNumber v c → (∀ n, (n, c) ∉ statusTable) →
      serResponse (.struct (("status".toList, v) :: fs)) body = .err .invalid) := by
  refine ⟨fun v fs => ?_, fun fs ⟨f, hf, h1, h2⟩ => ?_, fun n fs hn => ⟨?_, ?_⟩,
    fun v c fs hv hc => ?_⟩ <;> refine C31_rejected _ _ fun c' h => ?_
  · generalize hk : "header".toList = k at h
    cases h
    exact absurd hk (by decide)
  · cases h with
    | struct _ _ h3 =>
      rcases List.mem_cons.1 hf with rfl | hf
      · exact h1 rfl
      · exact h2 (h3 f hf)
  · cases h with | unit h => exact hn _ h
  · cases h with | variant h _ => exact hn _ h
  · cases h with
    | struct h1 h2 h3 =>
      have := hv.unique h1
      subst this
      exact hc _ h2

/-! ### C30: receiving -/

/-- **C30**: a value of a response enum is only yielded under the name of the status received, and
only if the enum has a variant of this name. -/
theorem C30_variant_is_status (vs : List (Str × VTy)) (code : Nat) (hs : List Header) (v : Val)
    (h : deResponse (.enum vs) code hs = .ok v) :
    ∃ n, (n, code) ∈ statusTable ∧ Declared vs n ∧ variantName v = some n := by
  rw [deResponse, RespDe.de] at h
  obtain ⟨n, h1, h2⟩ := Res.bind_eq_ok.1 h
  have hn : statusCodeToStr code = some n := by
    cases hc : statusCodeToStr code with
    | none => rw [hc] at h1; cases h1
    | some m => rw [hc] at h1; cases h1; rfl
  refine ⟨n, (statusCodeToStr_table _ _).1 hn, ?_⟩
  clear h h1
  induction vs with
  | nil => rw [RespDe.deVariant] at h2; cases h2
  | cons x vs ih =>
    obtain ⟨m, vt⟩ := x
    rw [RespDe.deVariant] at h2
    split at h2
    · next hm =>
      subst hm
      refine ⟨by simp [Declared], ?_⟩
      cases vt with
      | unit => rw [RespDe.deContent] at h2; cases h2; rfl
      | newtype t =>
        rw [RespDe.deContent] at h2
        obtain ⟨w, -, h3⟩ := Res.bind_eq_ok.1 h2
        cases h3; rfl
      | tuple ts => rw [RespDe.deContent] at h2; cases h2
      | struct fs =>
        rw [RespDe.deContent] at h2
        obtain ⟨w, -, h3⟩ := Res.bind_eq_ok.1 h2
        cases h3; rfl
    · obtain ⟨h3, h4⟩ := ih h2
      exact ⟨by unfold Declared at *; exact List.mem_cons_of_mem _ h3, h4⟩

/-- **C30**: a status that is unknown or has no variant is an `Invalid` error. -/
theorem C30_undeclared_invalid (vs : List (Str × VTy)) (code : Nat) (hs : List Header)
    (h : ∀ n, (n, code) ∈ statusTable → ¬ Declared vs n) :
    deResponse (.enum vs) code hs = .err .invalid := by
  rw [deResponse, RespDe.de]
  cases hc : statusCodeToStr code with
  | none => rfl
  | some n =>
    have hn := h n ((statusCodeToStr_table _ _).1 hc)
    simp only [Res.ofOption, Res.bind_ok]
    clear h
    induction vs with
    | nil => rw [RespDe.deVariant]
    | cons x vs ih =>
      obtain ⟨m, vt⟩ := x
      have h1 : n ≠ m := by rintro rfl; exact hn (by simp [Declared])
      have h2 : ¬ Declared vs n := by
        intro h; unfold Declared at *; exact hn (List.mem_cons_of_mem _ h)
      rw [RespDe.deVariant, if_neg h1]
      exact ih h2

theorem deVariant_lookup (i : RespInput) (n : Str) (vt : VTy) : ∀ vs : List (Str × VTy),
    vs.lookup n = some vt → RespDe.deVariant i n vs = RespDe.deContent i n vt
  | [], h => by cases h
  | (m, x) :: vs, h => by
    rw [RespDe.deVariant]
    rw [List.lookup_cons] at h
    by_cases hm : n = m
    · subst hm
      simp at h
      subst h
      rw [if_pos rfl]
    · rw [if_neg hm]
      have : (n == m) = false := by simpa using hm
      rw [this] at h
      exact deVariant_lookup i n vt vs h

end

/-! ### C29: round trip -/

section
variable [LawfulFloatText]

/-- **C29.** A response in the supported class is sent with its status and its body, and the client
decodes the same value from it, also if the transport adds headers the type does not ask for. -/
theorem C29_response_round_trip (v : Val) (t : Ty) (ht : Option Ty) (c : Nat)
    (hv : PlainResponse v t ht c) (body : Bytes) :
    ∃ r, serResponse v body = .ok r ∧ r.status.code = c ∧ r.body = body ∧
      ∀ pre post, AsciiNames pre → AsciiNames post → Foreign ht pre → Foreign ht post →
        deResponse t r.status.code (pre ++ r.headers ++ post) = .ok v := by
  have hdr : ∀ {s : Status} {h : Option Val} {own : List Header}, requestHeaders h = .ok own →
      RespSer.serFields (optField "header".toList h) ⟨false, some (s, [])⟩ =
        .ok ⟨false, some (s, own)⟩ ∧
      RespSer.serVariantFields (optField "header".toList h) ⟨false, some (s, [])⟩ =
        .ok ⟨false, some (s, own)⟩ := by
    intro s h own hh
    cases h with
    | none => cases hh; exact ⟨rfl, rfl⟩
    | some w =>
      rw [requestHeaders] at hh
      constructor
      · simp only [optField, RespSer.serFields, RespSer.serField, RespSer.addHeaders, hh]
        rfl
      · simp only [optField, RespSer.serVariantFields, RespSer.serVariantField, RespSer.addHeaders,
          hh]
        rfl
  have named : ∀ {n s}, statusFromStr n = some s →
      RespSer.startNamed n RespSer.new = .ok ⟨false, some (s, [])⟩ := by
    intro n s hs
    rw [RespSer.startNamed, hs]; rfl
  have opt : ∀ {h : Option Val} {ht : Option Ty} {hs : List Header}, hs ≠ [] →
      ((ht = none ∧ h = none) ∨ ∃ ty w, ht = some ty ∧ h = some w ∧ deHeaders ty hs = .ok w) →
      (ht = none ∧ h = none ∧ ignoreHeaders hs = .ok ()) ∨ ∃ ty w, ht = some ty ∧ h = some w ∧
        deHeaders ty hs = .ok w := by
    rintro h ht hs hne (⟨rfl, rfl⟩ | h)
    · exact .inl ⟨rfl, rfl, ignoreHeaders_ok hne⟩
    · exact .inr h
  induction hv with
  | @unit n c vs hn hl =>
    obtain ⟨s, rfl, hs⟩ := status_of_table hn
    refine ⟨⟨s, [contentLength body], body⟩, ?_, rfl, rfl, ?_⟩
    · rw [serResponse, RespSer.ser, named hs]; rfl
    · intro pre post _ _ _ _
      rw [deResponse, RespDe.de]
      simp only [(statusCodeToStr_table _ _).2 hn, Res.ofOption, Res.bind_ok]
      rw [deVariant_lookup _ _ _ _ hl, RespDe.deContent]
  | @variant n c vs h ht hn hl hh =>
    obtain ⟨s, rfl, hs⟩ := status_of_table hn
    obtain ⟨own, h1, h2⟩ := hh.sound body
    refine ⟨⟨s, own ++ [contentLength body], body⟩, ?_, rfl, rfl, ?_⟩
    · rw [serResponse, RespSer.ser, named hs]
      simp only [Res.bind_ok]
      rw [(hdr h1).2]; rfl
    · intro pre post k1 k2 k3 k4
      have h3 := h2 pre post k1 k2 k3 k4
      have l1 : (optField "header".toList ht).lookup "header".toList = ht := by cases ht <;> rfl
      rw [deResponse, RespDe.de]
      simp only [(statusCodeToStr_table _ _).2 hn, Res.ofOption, Res.bind_ok]
      rw [deVariant_lookup _ _ _ _ hl, RespDe.deContent, respDe_variant,
        readPart_opt l1 (v := h) (opt (by simp) h3)]
      simp only [Res.bind_ok]
      have : assemble ([] ++ optField "header".toList h) (optField "header".toList ht) =
          .ok (optField "header".toList h) := by
        rcases h3 with ⟨rfl, rfl⟩ | ⟨_, _, rfl, rfl, -⟩ <;> rfl
      rw [this]; rfl
  | @struct it n c h ht hn hit hh =>
    obtain ⟨s, rfl, hs⟩ := status_of_table hn
    obtain ⟨own, h1, h2⟩ := hh.sound body
    refine ⟨⟨s, own ++ [contentLength body], body⟩, ?_, rfl, rfl, ?_⟩
    · rw [serResponse, RespSer.ser, RespSer.serFields, RespSer.serField, if_pos rfl]
      have hc : RespSer.jsonU16 (.int it (Int.ofNat s.code)) = some s.code := by
        rw [RespSer.jsonU16, if_pos]
        · rfl
        · constructor
          · exact Int.natCast_nonneg _
          · have : s.code ≤ 65535 := by cases s <;> decide
            exact Int.ofNat_le.2 this
      rw [hc]
      simp only [Res.ofOption, Res.bind_ok, (statusOfCode_iff _ _).2 rfl, RespSer.new,
        Res.check_true]
      rw [(hdr h1).1]; rfl
    · intro pre post k1 k2 k3 k4
      have h3 := h2 pre post k1 k2 k3 k4
      have l1 : (("status".toList, Ty.int it) :: optField "header".toList ht).lookup
        "header".toList = ht := by cases ht <;> rfl
      have l2 : (("status".toList, Ty.int it) :: optField "header".toList ht).lookup
        "status".toList = some (.int it) := rfl
      rw [deResponse, RespDe.de, respDe_struct,
        readPart_opt l2 (v := some (.int it (Int.ofNat s.code))) (.inr ⟨_, _, rfl, rfl, ?_⟩)]
      · simp only [Res.bind_ok]
        rw [readPart_opt l1 (v := h) (opt (by simp) h3)]
        simp only [Res.bind_ok]
        have : assemble ([] ++ optField "status".toList (some (.int it (Int.ofNat s.code))) ++
            optField "header".toList h)
            (("status".toList, Ty.int it) :: optField "header".toList ht) =
            .ok (("status".toList, .int it (Int.ofNat s.code)) ::
              optField "header".toList h) := by
          rcases h3 with ⟨rfl, rfl⟩ | ⟨_, _, rfl, rfl, -⟩ <;> rfl
        rw [this]; rfl
      · cases hit with
        | int _ _ hf => show deU16 s.code (.int it) = _; rw [deU16, if_pos hf]
  | @newtype v t ht c hv ih =>
    obtain ⟨r, h1, h2, h3, h4⟩ := ih
    refine ⟨r, ?_, h2, h3, ?_⟩
    · rw [serResponse, RespSer.ser]; exact h1
    · intro pre post k1 k2 k3 k4
      have := h4 pre post k1 k2 k3 k4
      rw [deResponse] at this
      rw [deResponse, RespDe.de, this]; rfl

end

/-! ### Examples -/

section Examples

def exRespTy : Ty := .enum [("Ok".toList, .struct [("header".toList, .struct exHeaderTy)]),
  ("NoContent".toList, .unit), ("NotFound".toList, .struct [])]

/-- `C29` applies to a struct variant with a header, behind a `Date` header. -/
example (body : Bytes) : letI := toyFloat
    ∃ r, serResponse (.structVariant "Ok".toList [("header".toList, .struct exHeader)]) body =
        .ok r ∧ r.status.code = 200 ∧
      deResponse exRespTy 200 ([(utf8 "Date".toList, [65])] ++ r.headers ++ []) =
        .ok (.structVariant "Ok".toList [("header".toList, .struct exHeader)]) := by
  let := toyFloat
  obtain ⟨r, h1, h2, h3, h4⟩ := C29_response_round_trip
    (.structVariant "Ok".toList [("header".toList, .struct exHeader)]) exRespTy _ 200
    (.variant (by decide) rfl exReq_header) body
  have h5 := h4 [(utf8 "Date".toList, [65])] [] (by unfold AsciiNames; decide)
    (by unfold AsciiNames; decide) (by intro ts hts; cases hts; decide)
    (by intro ts _ h hh; cases hh)
  rw [h2] at h5
  exact ⟨r, h1, h2, h5⟩

/-- `C29` for the other forms. -/
example : letI := toyFloat
    PlainResponse (.unitVariant "NoContent".toList) exRespTy none 204 ∧
    PlainResponse (.structVariant "NotFound".toList []) exRespTy none 404 ∧
    PlainResponse (.newtypeStruct (.struct [("status".toList, .int .u16 404)]))
      (.newtypeStruct (.struct [("status".toList, .int .u16)])) none 404 :=
  letI := toyFloat
  ⟨.unit (by decide) rfl, .variant (h := none) (ht := none) (by decide) rfl .absent,
    .newtype (.struct (h := none) (ht := none) (n := "NotFound".toList) (c := 404) (by decide)
      (.int _ _ (by decide)) .absent)⟩

/-- `C30`: status 404 for a response type without that variant. -/
example (hs : List Header) : letI := toyFloat
    deResponse (.enum [("Ok".toList, .unit)]) 404 hs = .err .invalid :=
  letI := toyFloat
  C30_undeclared_invalid _ _ _ (by
    intro n hn
    rw [← statusCodeToStr_table] at hn
    cases hn
    decide)

/-- `C31`: both outcomes occur. -/
example : letI := toyFloat
    (∃ r, serResponse (.struct [("status".toList, .some (.int .u16 404))]) [] = .ok r) ∧
    serResponse (.struct [("status".toList, .int .u16 999)]) [] = .err .invalid := by
  let := toyFloat
  refine ⟨⟨_, rfl⟩, (C31_cases []).2.2.2 _ 999 _ (.int _ 999) ?_⟩
  intro n hn
  rw [← statusCodeToStr_table] at hn
  cases hn

end Examples

end Htrpc
