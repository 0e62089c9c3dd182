import Verif.Lemmas.Path
import Verif.Lemmas.Text
import Verif.Lemmas.Res

namespace Htrpc
open Spec

@[simp] theorem varCount_nil : varCount [] = 0 := rfl
@[simp] theorem varCount_val (s : Str) (e : EntryPoint) : varCount (.val s :: e) = varCount e := rfl
@[simp] theorem varCount_var (e : EntryPoint) : varCount (.var :: e) = varCount e + 1 := rfl

namespace PathSer

theorem append_end {e : EntryPoint} {p : Str} (h : varCount e = 0) (args : List Str) :
    appendUntilNextVar p e = ((instantiate e args).foldl pushSegment p, [], true) := by
  induction e generalizing p with
  | nil => rfl
  | cons s e ih =>
    cases s with
    | val c => simpa [appendUntilNextVar, instantiate] using ih (by simpa using h)
    | var => simp at h

theorem append_var {e : EntryPoint} {p : Str} {n : Nat} (h : varCount e = n + 1) :
    ∃ p' rest, appendUntilNextVar p e = (p', .var :: rest, false) ∧ varCount rest = n ∧
      ∀ a args, (instantiate e (a :: args)).foldl pushSegment p =
        (instantiate rest args).foldl pushSegment (pushSegment p' a) := by
  induction e generalizing p with
  | nil => simp at h
  | cons s e ih =>
    cases s with
    | val c =>
      obtain ⟨p', rest, h1, h2, h3⟩ := ih (p := pushSegment p c) (by simpa using h)
      exact ⟨p', rest, by simpa [appendUntilNextVar] using h1, h2, by
        intro a args; simpa [instantiate] using h3 a args⟩
    | var => exact ⟨p, e, rfl, by simpa using h, fun a args => rfl⟩

variable [FloatText]

theorem ser_scalar {v : Val} (h : Scalar v) : ∃ s, ∀ st, ser v st = bindNextVar st s := by
  induction h with
  | bool b => exact ⟨_, fun st => by rw [ser]⟩
  | int t i => exact ⟨_, fun st => by rw [ser]⟩
  | f32 x => exact ⟨_, fun st => by rw [ser]⟩
  | f64 x => exact ⟨_, fun st => by rw [ser]⟩
  | char c => exact ⟨_, fun st => by rw [ser]⟩
  | str s => exact ⟨_, fun st => by rw [ser]⟩
  | unitVariant n => exact ⟨_, fun st => by rw [ser]⟩
  | newtypeStruct _ ih =>
    obtain ⟨s, hs⟩ := ih
    exact ⟨s, fun st => by rw [ser, hs]⟩
  | newtypeVariant _ ih =>
    obtain ⟨s, hs⟩ := ih
    exact ⟨s, fun st => by rw [ser, hs]⟩

theorem ser_plain {v : Val} {s : Str} (h : PlainArg v s) (st : PathSer) :
    ser v st = bindNextVar st s := by
  induction h with
  | newtype _ ih => rw [ser, ih]
  | _ => simp [ser]

theorem PlainArg.scalar {v : Val} {s : Str} (h : PlainArg v s) : Scalar v := by
  induction h with
  | newtype _ ih => exact .newtypeStruct ih
  | _ => constructor

/-- Arguments with their texts as written by the client. -/
inductive Writes : List Val → List Str → Prop where
  | nil : Writes [] []
  | cons {v s vs ss} : (∀ st, ser v st = bindNextVar st s) → Writes vs ss →
      Writes (v :: vs) (s :: ss)

theorem Writes.length {vs : List Val} {ss : List Str} (h : Writes vs ss) :
    vs.length = ss.length := by
  induction h with
  | nil => rfl
  | cons _ _ ih => simp [ih]

theorem writes_of_scalars {vs : List Val} (h : ∀ v ∈ vs, Scalar v) : ∃ ss, Writes vs ss := by
  induction vs with
  | nil => exact ⟨[], .nil⟩
  | cons v vs ih =>
    obtain ⟨s, hs⟩ := ser_scalar (h v (List.mem_cons_self ..))
    obtain ⟨ss, hss⟩ := ih fun w hw => h w (List.mem_cons_of_mem _ hw)
    exact ⟨s :: ss, .cons hs hss⟩

theorem writes_of_plain {vs : List Val} {ss : List Str} (h : PlainArgs vs ss) : Writes vs ss := by
  induction h with
  | nil => exact .nil
  | cons h _ ih => exact .cons (ser_plain h) ih

theorem ser_sentAs {v : Val} {s : Str} (h : SentAs v s) (st : PathSer) :
    ser v st = bindNextVar st s := by
  induction h with
  | newtypeStruct _ ih => rw [ser, ih]
  | newtypeVariant _ ih => rw [ser, ih]
  | _ => simp [ser]

theorem writes_of_sent {vs : List Val} {ss : List Str} (h : SentAll vs ss) : Writes vs ss := by
  induction h with
  | nil => exact .nil
  | cons h _ ih => exact .cons (ser_sentAs h) ih

theorem writes_strs (ss : List Str) : Writes (ss.map Val.str) ss := by
  induction ss with
  | nil => exact .nil
  | cons s ss ih => exact .cons (fun st => by rw [ser]) ih

theorem serAll_ok {vs : List Val} {ss : List Str} (h : Writes vs ss) (e : EntryPoint) (p : Str)
    (rest : List Seg) (hc : varCount rest = ss.length) :
    (do finish (← serAll vs ⟨p, e, rest, true⟩) : Res PathSer) =
      .ok ⟨(instantiate rest ss).foldl pushSegment p, e, [], true⟩ := by
  induction h generalizing p rest with
  | nil =>
    simp only [serAll, Res.bind_ok, finish, Res.check_true]
    rw [append_end (by simpa using hc) []]
  | cons hv hvs ih =>
    obtain ⟨p', rest', h1, h2, h3⟩ := append_var (p := p) (n := _) (by simpa using hc)
    simp only [serAll, hv, bindNextVar, Res.check_true, Res.bind_ok, h1, List.tail_cons]
    rw [ih _ _ h2, h3]

end PathSer

/-- Serializing a tuple of arguments: exact result. -/
theorem serPath_tuple [FloatText] {v : Val} {vs : List Val} (hv : ArgTuple v vs) {ss : List Str}
    (h : PathSer.Writes vs ss) (e : EntryPoint) (p : Str) :
    serPath e p v = if varCount e = ss.length then .ok ((instantiate e ss).foldl pushSegment p)
      else .err .invalid := by
  have hlen := h.length
  have key : ∀ st : PathSer, st = PathSer.new e p →
      PathSer.ser v st = if varCount e = ss.length then
        .ok ⟨(instantiate e ss).foldl pushSegment p, e, [], true⟩ else .err .invalid := by
    intro st hst
    have base : (do PathSer.finish (← PathSer.serAll vs (← PathSer.start st vs.length)) :
        Res PathSer) = if varCount e = ss.length then
        .ok ⟨(instantiate e ss).foldl pushSegment p, e, [], true⟩ else .err .invalid := by
      subst hst
      simp only [PathSer.start, PathSer.new, Bool.not_false, Res.check_true, Res.bind_ok, hlen]
      by_cases hc : varCount e = ss.length
      · rw [if_pos hc, hc]
        simp only [beq_self_eq_true, Res.check_true, Res.bind_ok]
        exact PathSer.serAll_ok h e p e hc
      · rw [if_neg hc, beq_false_of_ne hc]
        simp
    induction hv with
    | tuple vs => rw [PathSer.ser]; exact base
    | tupleStruct vs => rw [PathSer.ser]; exact base
    | newtype _ ih => rw [PathSer.ser]; exact ih h hlen base
  rw [serPath, key _ rfl]
  split <;> simp

/-! ### Decoding -/

theorem pathChar_keep {c : Char} (h : PathChar c) :
    c.toNat < 0x80 ∧ keepSegment (UInt8.ofNat c.toNat) = true ∧ isTabNl c = false := by
  rcases h with h | h
  · have h1 := keepSegment_alnum h
    refine ⟨h1.1, h1.2, ?_⟩
    have := alnum_range h
    simp only [isTabNl, Bool.or_eq_false_iff, beq_eq_false_iff_ne]
    refine ⟨⟨?_, ?_⟩, ?_⟩ <;> rintro rfl <;> exact absurd h (by decide)
  · have : ∀ c ∈ "-._~!$&'()*+,;=:@".toList,
        c.toNat < 0x80 ∧ keepSegment (UInt8.ofNat c.toNat) = true ∧ isTabNl c = false := by
      decide
    exact this c h

/-- Constants made of path characters are sent unescaped. -/
theorem encodeSegment_plain {s : Str} (h : ∀ c ∈ s, PathChar c) : encodeSegment s = s := by
  have hst : strip s = s := List.filter_eq_self.2 fun c hc => by
    simpa [isTabNl] using (pathChar_keep (h c hc)).2.2
  rw [encodeSegment_eq, hst]
  exact pctEncode_id fun c hc => ⟨(pathChar_keep (h c hc)).1, (pathChar_keep (h c hc)).2.1⟩

theorem strip_of_noTabNl {s : Str} (h : NoTabNl s) : strip s = s := by
  refine List.filter_eq_self.2 fun c hc => ?_
  obtain ⟨h1, h2, h3⟩ := h
  simp only [Bool.not_eq_true', Bool.or_eq_false_iff, beq_eq_false_iff_ne]
  exact ⟨⟨fun e => h1 (e ▸ hc), fun e => h2 (e ▸ hc)⟩, fun e => h3 (e ▸ hc)⟩

/-- An ASCII argument is read back by the server. -/
theorem percentDecode_ascii {s : Str} (ha : Ascii s) (hn : NoTabNl s) :
    percentDecode (encodeSegment s) = some s := by
  rw [percentDecode_encodeSegment, strip_of_noTabNl hn, latin1_ascii ha]

namespace PathDe

theorem nextValue_instantiate {e : EntryPoint} {n : Nat} (h : varCount e = n + 1)
    (hp : PlainConsts e) (a : Str) (args : List Str) :
    ∃ rest, nextValue e ((instantiate e (a :: args)).map encodeSegment) (n + 1) =
        .ok (encodeSegment a, rest, (instantiate rest args).map encodeSegment, n) ∧
      varCount rest = n ∧ PlainConsts rest := by
  induction e with
  | nil => simp at h
  | cons s e ih =>
    have hp' : PlainConsts e := fun c hc => hp c (List.mem_cons_of_mem _ hc)
    cases s with
    | val c =>
      obtain ⟨rest, h1, h2⟩ := ih (by simpa using h) hp'
      refine ⟨rest, ?_, h2⟩
      simp only [instantiate, List.map_cons, nextValue,
        encodeSegment_plain (hp c (List.mem_cons_self ..)), beq_self_eq_true, Res.check_true,
        Res.bind_ok]
      exact h1
    | var => exact ⟨e, rfl, by simpa using h, hp'⟩

variable [LawfulFloatText]

theorem de_plain {v : Val} {t : Ty} {s : Str} (h : PlainArg v s) (ht : HasTy v t) (ha : Ascii s)
    (hn : NoTabNl s) {st : PathDe} {rest : List Seg} {segs : List Str} {fv : Nat}
    (hnext : nextValue st.rest st.segs st.freeVars = .ok (encodeSegment s, rest, segs, fv)) :
    de t st = .ok (v, { st with rest, segs, freeVars := fv }) := by
  have hsc : ∀ f : Str → Option Val, f s = some v →
      scalar f st = .ok (v, { st with rest, segs, freeVars := fv }) := by
    intro f hf
    simp only [scalar, hnext, Res.bind_ok, percentDecode_ascii ha hn, Option.bind_some, hf,
      Res.ofOption_some]
  induction h generalizing t with
  | false =>
    cases ht
    rw [de]
    exact hsc _ rfl
  | int t i =>
    cases ht with
    | int _ _ hf =>
      rw [de]
      exact hsc _ (by rw [parseInt_showInt hf]; rfl)
  | f32 x hx =>
    cases ht
    rw [de]
    exact hsc _ (by rw [LawfulFloatText.parse32_show64 x hx]; rfl)
  | f64 x hx =>
    cases ht
    rw [de]
    exact hsc _ (by rw [LawfulFloatText.parse64_show64 x hx]; rfl)
  | str s =>
    cases ht
    rw [de]
    exact hsc _ rfl
  | newtype h ih =>
    cases ht with
    | newtypeStruct ht =>
      have := ih ht ha hn hnext (by
        intro f hf
        simp only [scalar, hnext, Res.bind_ok, percentDecode_ascii ha hn, Option.bind_some, hf,
          Res.ofOption_some])
      rw [de]
      simp only [this, Res.bind_ok]

theorem deAll_plain {vs : List Val} {ss : List Str} (h : PlainArgs vs ss) {ts : List Ty}
    (ht : HasTys vs ts) (ha : ∀ s ∈ ss, Ascii s) (hn : ∀ s ∈ ss, NoTabNl s) {e : EntryPoint}
    (hc : varCount e = ss.length) (hp : PlainConsts e) :
    ∃ st, deAll ts ⟨true, (instantiate e ss).map encodeSegment, e, varCount e⟩ = .ok (vs, st) := by
  induction h generalizing ts e with
  | nil => cases ht; exact ⟨_, rfl⟩
  | cons hv hvs ih =>
    cases ht with
    | cons ht hts =>
    obtain ⟨rest, h1, h2, h3⟩ := nextValue_instantiate (by simpa using hc) hp _ _
    obtain ⟨st', hst'⟩ := ih hts (fun s hs => ha s (List.mem_cons_of_mem _ hs))
      (fun s hs => hn s (List.mem_cons_of_mem _ hs)) h2 h3
    refine ⟨st', ?_⟩
    rw [deAll]
    simp only [nextElement]
    rw [if_neg (by simp [hc]), de_plain hv ht (ha _ (List.mem_cons_self ..))
      (hn _ (List.mem_cons_self ..)) (rest := rest) (by simpa [hc] using h1)]
    simp only [Res.bind_ok]
    rw [h2] at hst'
    rw [hst']
    rfl

omit [LawfulFloatText] in
/-- The variable counter agrees with the rest of the entry point. -/
theorem nextValue_sat {rest : List Seg} {segs : List Str} {fv : Nat} (h : varCount rest = fv) :
    (nextValue rest segs fv).Sat fun r => varCount r.2.1 = r.2.2.2 ∧ r.2.2.2 + 1 = fv := by
  induction rest generalizing segs with
  | nil => simp [nextValue]
  | cons s rest ih =>
    cases segs with
    | nil => cases s <;> simp [nextValue]
    | cons a segs =>
      cases s with
      | val c =>
        simp only [nextValue]
        exact Res.sat_check.bind fun _ _ => ih (by simpa using h)
      | var =>
        cases fv with
        | zero => simp at h
        | succ fv => simp at h; simp [nextValue, h]

omit [LawfulFloatText] in
theorem finish_sat {rest : List Seg} {segs : List Str} : (finish rest segs).Sat fun _ => True := by
  induction rest generalizing segs with
  | nil => simp [finish]
  | cons s rest ih =>
    cases s with
    | var => simp [finish]
    | val c =>
      cases segs with
      | nil => simp [finish]
      | cons a segs =>
        simp only [finish]
        exact Res.sat_check.bind fun _ _ => ih

omit [LawfulFloatText] in
theorem scalar_sat {f : Str → Option Val} {st : PathDe} (h : varCount st.rest = st.freeVars) :
    (scalar f st).Sat fun r => varCount r.2.rest = r.2.freeVars ∧
      (st.inSeq = true → r.2.inSeq = true ∧ r.2.freeVars + 1 = st.freeVars) := by
  unfold scalar
  refine (nextValue_sat h).bind ?_
  rintro ⟨s, rest, segs, fv⟩ ⟨h1, h2⟩
  refine Res.sat_ofOption.bind ?_
  intro v _
  exact ⟨h1, fun hs => ⟨hs, h2⟩⟩

omit [LawfulFloatText] in
theorem enterSeq_sat {st : PathDe} (h : varCount st.rest = st.freeVars) :
    (enterSeq st).Sat fun r => st.inSeq = false ∧ r.inSeq = true ∧
      varCount r.rest = r.freeVars ∧ r.freeVars = st.freeVars := by
  unfold enterSeq
  refine Res.sat_check.bind fun _ hs => ?_
  simp at hs
  exact ⟨hs, rfl, h, rfl⟩

/-- The invariant of a decoder of elements. -/
def ElemSat (dec : Dec PathDe) : Prop :=
  ∀ st, varCount st.rest = st.freeVars → (dec st).Sat fun r =>
    varCount r.2.rest = r.2.freeVars ∧
      (st.inSeq = true → r.2.inSeq = true ∧ r.2.freeVars + 1 = st.freeVars)

omit [LawfulFloatText] in
theorem nextElement_sat {dec : Dec PathDe} (hd : ElemSat dec) {st : PathDe}
    (h : varCount st.rest = st.freeVars) (hs : st.inSeq = true) :
    (nextElement dec st).Sat fun r => varCount r.2.rest = r.2.freeVars ∧ r.2.inSeq = true ∧
      (r.1.isSome = true → r.2.freeVars + 1 = st.freeVars) := by
  unfold nextElement
  split
  · refine finish_sat.bind fun _ _ => ?_
    exact ⟨h, hs, by simp⟩
  · refine (hd st h).bind ?_
    rintro ⟨v, st'⟩ ⟨h1, h2⟩
    exact ⟨h1, (h2 hs).1, fun _ => (h2 hs).2⟩

omit [LawfulFloatText] in
theorem visitSeq_sat {dec : Dec PathDe} (hd : ElemSat dec) (fuel : Nat) (acc : List Val)
    (st : PathDe) (h : varCount st.rest = st.freeVars) (hs : st.inSeq = true)
    (hf : st.freeVars < fuel) :
    (visitSeq (nextElement dec) fuel acc st).Sat fun r => varCount r.2.rest = r.2.freeVars := by
  induction fuel generalizing acc st with
  | zero => omega
  | succ fuel ih =>
    simp only [visitSeq]
    refine (nextElement_sat hd h hs).bind ?_
    rintro ⟨o, st'⟩ ⟨h1, h2, h3⟩
    cases o with
    | none => exact h1
    | some v =>
      have := h3 rfl
      exact ih _ _ h1 h2 (by simp only at this; omega)

end PathDe

namespace PathDe
variable [FloatText]

mutual
/-- Every type's decoder keeps the invariant and never panics. -/
theorem de_sat : ∀ t : Ty, ElemSat (de t)
  | .bool => by intro st h; rw [de]; exact scalar_sat h
  | .int t => by intro st h; rw [de]; exact scalar_sat h
  | .f32 => by intro st h; rw [de]; exact scalar_sat h
  | .f64 => by intro st h; rw [de]; exact scalar_sat h
  | .str => by intro st h; rw [de]; exact scalar_sat h
  | .char => by intro st h; rw [de]; exact Res.sat_invalid
  | .bytes => by intro st h; rw [de]; exact Res.sat_invalid
  | .option _ => by intro st h; rw [de]; exact Res.sat_invalid
  | .unit => by intro st h; rw [de]; exact Res.sat_invalid
  | .unitStruct _ => by intro st h; rw [de]; exact Res.sat_invalid
  | .map _ _ => by intro st h; rw [de]; exact Res.sat_invalid
  | .struct _ => by intro st h; rw [de]; exact Res.sat_invalid
  | .enum _ => by intro st h; rw [de]; exact Res.sat_invalid
  | .newtypeStruct t => by
    intro st h
    rw [de]
    refine (de_sat t st h).bind ?_
    rintro ⟨v, st'⟩ h'
    exact h'
  | .seq t => by
    intro st h
    rw [de]
    refine (enterSeq_sat h).bind ?_
    rintro st' ⟨h0, h1, h2, h3⟩
    refine (visitSeq_sat (de_sat t) _ _ _ h2 h1 (by omega)).bind ?_
    rintro ⟨vs, st''⟩ h4
    exact ⟨h4, fun hs => by rw [h0] at hs; cases hs⟩
  | .tuple ts => by
    intro st h
    rw [de]
    refine (enterSeq_sat h).bind ?_
    rintro st' ⟨h0, h1, h2, h3⟩
    refine (deAll_sat ts st' h2 h1).bind ?_
    rintro ⟨vs, st''⟩ h4
    exact ⟨h4, fun hs => by rw [h0] at hs; cases hs⟩
  | .tupleStruct ts => by
    intro st h
    rw [de]
    refine (enterSeq_sat h).bind ?_
    rintro st' ⟨h0, h1, h2, h3⟩
    refine (deAll_sat ts st' h2 h1).bind ?_
    rintro ⟨vs, st''⟩ h4
    exact ⟨h4, fun hs => by rw [h0] at hs; cases hs⟩
theorem deAll_sat : ∀ (ts : List Ty) (st : PathDe), varCount st.rest = st.freeVars →
    st.inSeq = true → (deAll ts st).Sat fun r => varCount r.2.rest = r.2.freeVars
  | [], st, h, _ => by rw [deAll]; exact h
  | t :: ts, st, h, hs => by
    rw [deAll]
    refine (nextElement_sat (de_sat t) h hs).bind ?_
    rintro ⟨o, st'⟩ ⟨h1, h2, h3⟩
    cases o with
    | none => exact Res.sat_invalid
    | some v =>
      refine (deAll_sat ts st' h1 h2).bind ?_
      rintro ⟨vs, st''⟩ h4
      exact h4
end

end PathDe

/-- Decoding a path: a value or an `Invalid` error. -/
theorem dePath_sat [FloatText] (e : EntryPoint) (t : Ty) (segs : Option (List Str)) :
    (dePath e t segs).Sat fun _ => True := by
  unfold dePath
  refine Res.Sat.bind (P := fun st => varCount st.rest = st.freeVars) ?_ ?_
  · unfold PathDe.new
    refine Res.sat_ofOption.bind fun _ _ => ?_
    rfl
  · intro st h
    refine (PathDe.de_sat t st h).bind ?_
    rintro ⟨v, st'⟩ _
    trivial

/-- Decoding what was sent for a tuple of arguments. -/
theorem dePath_tuple [LawfulFloatText] {v : Val} {vs : List Val} (hv : ArgTuple v vs) {t : Ty}
    (ht : HasTy v t) {ss : List Str} (h : PlainArgs vs ss) (ha : ∀ s ∈ ss, Ascii s)
    (hn : ∀ s ∈ ss, NoTabNl s) {e : EntryPoint} (hc : varCount e = ss.length)
    (hp : PlainConsts e) :
    dePath e t (some ((instantiate e ss).map encodeSegment)) = .ok v := by
  have key : ∃ st, PathDe.de t ⟨false, (instantiate e ss).map encodeSegment, e, varCount e⟩ =
      .ok (v, st) := by
    induction hv generalizing t with
    | tuple vs =>
      cases ht with
      | tuple ht =>
      obtain ⟨st, hst⟩ := PathDe.deAll_plain h ht ha hn hc hp
      exact ⟨st, by rw [PathDe.de]; simp [PathDe.enterSeq, hst]⟩
    | tupleStruct vs =>
      cases ht with
      | tupleStruct ht =>
      obtain ⟨st, hst⟩ := PathDe.deAll_plain h ht ha hn hc hp
      exact ⟨st, by rw [PathDe.de]; simp [PathDe.enterSeq, hst]⟩
    | newtype _ ih =>
      cases ht with
      | newtypeStruct ht =>
      obtain ⟨st, hst⟩ := ih ht h
      exact ⟨st, by rw [PathDe.de]; simp only [hst, Res.bind_ok]⟩
  obtain ⟨st, hst⟩ := key
  simp [dePath, PathDe.new, hst]

end Htrpc
