/-
Exactly what the path deserializer reads from a path that matches the entry point.
-/
import Verif.Spec.Decode
import Verif.Lemmas.PathCodec

namespace Htrpc
open Spec

theorem Spec.variables_length {e : EntryPoint} {segs : List Str} (h : Matches e segs) :
    (variables e segs).length = varCount e := by
  induction h with
  | nil => rfl
  | @cons s e p ps hs _ ih =>
    cases s with
    | val c => simpa [variables] using ih
    | var => simpa [variables] using ih

/-! ### Escapes -/

theorem hexVal_eq (c : Char) : hexVal c = digitOf c := by
  by_cases h : c ∈ "0123456789abcdefABCDEF".toList
  · have all : ∀ x ∈ "0123456789abcdefABCDEF".toList, hexVal x = digitOf x := by decide
    exact all c h
  · have sub : ∀ l : List Char, (∀ x ∈ l, x ∈ "0123456789abcdefABCDEF".toList) → l.idxOf? c = none :=
      fun l hl => List.idxOf?_eq_none_iff.2 fun hc => h (hl c hc)
    have h1 : digitOf c = none := by
      rw [digitOf, sub _ (by decide), sub _ (by decide)]
    rw [h1]
    have hn : ∀ n : Nat, Char.ofNat n ∈ "0123456789abcdefABCDEF".toList → c.toNat ≠ n := by
      intro n hn he
      rw [← he, Char.ofNat_toNat] at hn
      exact h hn
    have k0 := hn 48 (by decide); have k1 := hn 49 (by decide); have k2 := hn 50 (by decide)
    have k3 := hn 51 (by decide); have k4 := hn 52 (by decide); have k5 := hn 53 (by decide)
    have k6 := hn 54 (by decide); have k7 := hn 55 (by decide); have k8 := hn 56 (by decide)
    have k9 := hn 57 (by decide); have ka := hn 97 (by decide); have kb := hn 98 (by decide)
    have kc := hn 99 (by decide); have kd := hn 100 (by decide); have ke := hn 101 (by decide)
    have kf := hn 102 (by decide); have kA := hn 65 (by decide); have kB := hn 66 (by decide)
    have kC := hn 67 (by decide); have kD := hn 68 (by decide); have kE := hn 69 (by decide)
    have kF := hn 70 (by decide)
    simp only [hexVal]
    rw [if_neg (by omega), if_neg (by omega), if_neg (by omega)]

theorem hexPair_eq (a b : Char) : hexPair a b = codeOf a b := by
  rw [hexPair, codeOf]
  split
  · exact hexVal_eq b
  · rw [← hexVal_eq, ← hexVal_eq]
    cases hexVal a with
    | none => rfl
    | some m =>
      cases hexVal b with
      | none => rfl
      | some n =>
        show some (m * 16 + n) = some (16 * m + n)
        rw [Nat.mul_comm]

/-- The deserializer resolves escapes as the specification says. -/
theorem percentDecode_eq : ∀ s : Str, percentDecode s = unescape s
  | [] => rfl
  | [c] => by
    unfold unescape percentDecode
    split <;> rfl
  | [c, d] => by
    unfold unescape percentDecode
    by_cases h1 : c = '%'
    · simp [h1]
    · unfold percentDecode
      by_cases h2 : d = '%' <;> simp [h1, h2, percentDecode]
  | c :: a :: b :: s => by
    rw [unescape, percentDecode]
    split
    · show (match hexPair a b with
        | some n => (percentDecode s).map (Char.ofNat n :: ·)
        | none => none) = _
      rw [hexPair_eq, percentDecode_eq s]
      cases codeOf a b with
      | none => rfl
      | some n => cases unescape s <;> rfl
    · rw [percentDecode_eq (a :: b :: s)]
      cases unescape (a :: b :: s) <;> rfl

theorem readSegment_eq [FloatText] (t : Ty) (seg : Str) :
    readSegment t seg = (percentDecode seg).bind (readArg t) := by
  rw [readSegment, percentDecode_eq]

namespace PathDe

/-- The next variable of a matching path. -/
theorem nextValue_matches {e : EntryPoint} {segs : List Str} {n : Nat} (h : Matches e segs)
    (hc : varCount e = n + 1) : ∃ s rest segs', nextValue e segs (n + 1) = .ok (s, rest, segs', n) ∧
      Matches rest segs' ∧ varCount rest = n ∧ variables e segs = s :: variables rest segs' := by
  induction h with
  | nil => simp at hc
  | @cons s e p ps hs hm ih =>
    cases s with
    | val c =>
      obtain ⟨s, rest, segs', h1, h2, h3, h4⟩ := ih (by simpa using hc)
      cases hs
      exact ⟨s, rest, segs', by simp [nextValue, h1], h2, h3, by rw [variables, h4]⟩
    | var => exact ⟨p, e, ps, rfl, hm, by simpa using hc, rfl⟩

variable [FloatText]

omit [FloatText] in
theorem scalar_read {f : Str → Option Val} {st : PathDe} {s : Str} {rest : List Seg}
    {segs : List Str} {fv : Nat}
    (hn : nextValue st.rest st.segs st.freeVars = .ok (s, rest, segs, fv)) :
    scalar f st = match (unescape s).bind f with
      | some v => .ok (v, { st with rest, segs, freeVars := fv })
      | none => .err .invalid := by
  rw [← percentDecode_eq]
  simp only [scalar, hn, Res.bind_ok]
  cases (percentDecode s).bind f <;> rfl

/-- An element is read from one segment. -/
theorem de_segment {st : PathDe} {s : Str} {rest : List Seg} {segs : List Str} {fv : Nat}
    (hs : st.inSeq = true) (hn : nextValue st.rest st.segs st.freeVars = .ok (s, rest, segs, fv)) :
    ∀ t : Ty, de t st = match readSegment t s with
      | some v => .ok (v, { st with rest, segs, freeVars := fv })
      | none => .err .invalid
  | .bool => by rw [de, scalar_read hn]; rfl
  | .int _ => by rw [de, scalar_read hn]; rfl
  | .f32 => by rw [de, scalar_read hn]; rfl
  | .f64 => by rw [de, scalar_read hn]; rfl
  | .str => by rw [de, scalar_read hn]; rfl
  | .char => by rw [de, readSegment_eq]; cases percentDecode s <;> rfl
  | .bytes => by rw [de, readSegment_eq]; cases percentDecode s <;> rfl
  | .option _ => by rw [de, readSegment_eq]; cases percentDecode s <;> rfl
  | .unit => by rw [de, readSegment_eq]; cases percentDecode s <;> rfl
  | .unitStruct _ => by rw [de, readSegment_eq]; cases percentDecode s <;> rfl
  | .newtypeStruct t => by
    rw [de]
    simp only [de_segment hs hn t, readSegment_eq]
    cases percentDecode s with
    | none => rfl
    | some x =>
      simp only [Option.bind_some, readArg]
      cases readArg t x <;> rfl
  | .seq _ => by rw [de, readSegment_eq]; simp only [enterSeq, hs]; cases percentDecode s <;> rfl
  | .tuple _ => by rw [de, readSegment_eq]; simp only [enterSeq, hs]; cases percentDecode s <;> rfl
  | .tupleStruct _ => by
    rw [de, readSegment_eq]; simp only [enterSeq, hs]; cases percentDecode s <;> rfl
  | .map _ _ => by rw [de, readSegment_eq]; cases percentDecode s <;> rfl
  | .struct _ => by rw [de, readSegment_eq]; cases percentDecode s <;> rfl
  | .enum _ => by rw [de, readSegment_eq]; cases percentDecode s <;> rfl

theorem deAll_matches : ∀ (ts : List Ty) {e : EntryPoint} {segs : List Str}, Matches e segs →
    varCount e = ts.length →
    match readSegments ts (variables e segs) with
      | some vs => ∃ st, deAll ts ⟨true, segs, e, varCount e⟩ = .ok (vs, st)
      | none => deAll ts ⟨true, segs, e, varCount e⟩ = .err .invalid
  | [], e, segs, h, hc => by
    have : variables e segs = [] := List.length_eq_zero_iff.1 ((variables_length h).trans hc)
    rw [this, readSegments]
    exact ⟨_, rfl⟩
  | t :: ts, e, segs, h, hc => by
    obtain ⟨s, rest, segs', h1, h2, h3, h4⟩ := nextValue_matches h (n := ts.length) hc
    have ih := deAll_matches ts h2 h3
    rw [h4, readSegments, deAll]
    simp only [nextElement]
    rw [if_neg (by simp [hc]),
      de_segment (st := ⟨true, segs, e, varCount e⟩) rfl (by rw [hc]; exact h1)]
    cases readSegment t s with
    | none => rfl
    | some v =>
      rw [h3] at ih
      simp only [Res.bind_ok]
      cases hr : readSegments ts (variables rest segs') with
      | none => rw [hr] at ih; simp only at ih ⊢; rw [ih]; rfl
      | some vs =>
        rw [hr] at ih
        obtain ⟨st, hst⟩ := ih
        exact ⟨st, by simp only [hst]; rfl⟩

end PathDe

variable [FloatText]

/-- A tuple is read from the segments at the variables. -/
theorem dePath_matches {e : EntryPoint} {segs : List Str} (h : Matches e segs) (ts : List Ty)
    (hc : ts.length = varCount e) :
    dePath e (.tuple ts) (some segs) =
      Res.ofOption ((readSegments ts (variables e segs)).map .tuple) := by
  have := PathDe.deAll_matches ts h hc.symm
  simp only [dePath, PathDe.new, Res.ofOption_some, Res.bind_ok, PathDe.de, PathDe.enterSeq,
    Bool.not_false, Res.check_true]
  cases hr : readSegments ts (variables e segs) with
  | none => rw [hr] at this; simp only at this; rw [this]; rfl
  | some vs =>
    rw [hr] at this
    obtain ⟨st, hst⟩ := this
    simp only [hst]
    rfl

/-! ### Every type -/

namespace PathDe

omit [FloatText] in
theorem finish_matches {e : EntryPoint} {segs : List Str} (h : Matches e segs) (hc : varCount e = 0) :
    finish e segs = .ok [] := by
  induction h with
  | nil => rfl
  | @cons s e p ps hs _ ih =>
    cases s with
    | val c => cases hs; simp [finish, ih (by simpa using hc)]
    | var => simp at hc

omit [FloatText] in
theorem nextValue_none {e : EntryPoint} {segs : List Str} (h : Matches e segs) (hc : varCount e = 0)
    (n : Nat) : nextValue e segs n = .err .invalid := by
  induction h with
  | nil => rfl
  | @cons s e p ps hs _ ih =>
    cases s with
    | val c => cases hs; simp [nextValue, ih (by simpa using hc)]
    | var => simp at hc

/-- As `deAll_matches`, for any number of types. -/
theorem deAll_take : ∀ (ts : List Ty) {e : EntryPoint} {segs : List Str}, Matches e segs →
    match readSegments ts ((variables e segs).take ts.length) with
      | some vs => ∃ st, deAll ts ⟨true, segs, e, varCount e⟩ = .ok (vs, st)
      | none => deAll ts ⟨true, segs, e, varCount e⟩ = .err .invalid
  | [], e, segs, h => by
    rw [List.length_nil, List.take_zero, readSegments]
    exact ⟨_, rfl⟩
  | t :: ts, e, segs, h => by
    cases hc : varCount e with
    | zero =>
      have : variables e segs = [] := List.length_eq_zero_iff.1 ((variables_length h).trans hc)
      rw [this, List.take_nil, readSegments, deAll]
      · simp only [nextElement, if_pos, finish_matches h hc, Res.bind_ok]
      · simp
      · simp
    | succ n =>
      obtain ⟨s, rest, segs', h1, h2, h3, h4⟩ := nextValue_matches h hc
      have ih := deAll_take ts h2
      rw [h4, List.length_cons, List.take_succ_cons, readSegments, deAll]
      simp only [nextElement]
      rw [if_neg (by simp), de_segment (st := ⟨true, segs, e, n + 1⟩) rfl h1]
      cases readSegment t s with
      | none => rfl
      | some v =>
        rw [h3] at ih
        simp only [Res.bind_ok]
        cases hr : readSegments ts ((variables rest segs').take ts.length) with
        | none => rw [hr] at ih; simp only at ih ⊢; rw [ih]; rfl
        | some vs =>
          rw [hr] at ih
          obtain ⟨st, hst⟩ := ih
          exact ⟨st, by simp only [hst]; rfl⟩

theorem visitSeq_each (t : Ty) : ∀ (n : Nat) {e : EntryPoint} {segs : List Str} (acc : List Val),
    Matches e segs → varCount e = n →
    match readEach t (variables e segs) with
      | some vs => ∃ st, visitSeq (nextElement (de t)) (n + 1) acc ⟨true, segs, e, n⟩ =
          .ok (acc ++ vs, st)
      | none => visitSeq (nextElement (de t)) (n + 1) acc ⟨true, segs, e, n⟩ = .err .invalid
  | 0, e, segs, acc, h, hc => by
    have : variables e segs = [] := List.length_eq_zero_iff.1 ((variables_length h).trans hc)
    rw [this, readEach]
    exact ⟨⟨true, [], e, 0⟩, by
      simp only [visitSeq, nextElement, if_pos, finish_matches h hc, Res.bind_ok, List.append_nil]⟩
  | n + 1, e, segs, acc, h, hc => by
    obtain ⟨s, rest, segs', h1, h2, h3, h4⟩ := nextValue_matches h hc
    rw [h4, readEach, visitSeq]
    simp only [nextElement]
    rw [if_neg (by simp), de_segment (st := ⟨true, segs, e, n + 1⟩) rfl h1]
    cases readSegment t s with
    | none => rfl
    | some v =>
      simp only [Res.bind_ok]
      have ih := visitSeq_each t n (acc ++ [v]) h2 h3
      cases hr : readEach t (variables rest segs') with
      | none => rw [hr] at ih; exact ih
      | some vs =>
        rw [hr] at ih
        obtain ⟨st, hst⟩ := ih
        exact ⟨st, by rw [hst]; simp⟩

omit [FloatText] in
theorem scalar_first {f : Str → Option Val} {e : EntryPoint} {segs : List Str} (h : Matches e segs) :
    match ((variables e segs).head?.bind fun s => (unescape s).bind f) with
      | some v => ∃ st, scalar f ⟨false, segs, e, varCount e⟩ = .ok (v, st)
      | none => scalar f ⟨false, segs, e, varCount e⟩ = .err .invalid := by
  cases hc : varCount e with
  | zero =>
    have : variables e segs = [] := List.length_eq_zero_iff.1 ((variables_length h).trans hc)
    rw [this]
    simp [scalar, nextValue_none h hc]
  | succ n =>
    obtain ⟨s, rest, segs', h1, h2, h3, h4⟩ := nextValue_matches h hc
    rw [h4, scalar_read (st := ⟨false, segs, e, n + 1⟩) h1, List.head?_cons, Option.bind_some]
    cases (unescape s).bind f with
    | none => rfl
    | some v => exact ⟨_, rfl⟩

theorem de_none {t : Ty} (h : ∀ s, readSegment t s = none) (segs : List Str) :
    segs.head?.bind (readSegment t) = none := by
  cases segs with
  | nil => rfl
  | cons s _ => exact h s

theorem readSegment_none {t : Ty} (h : ∀ s, readArg t s = none) (s : Str) :
    readSegment t s = none := by
  rw [readSegment_eq]
  cases percentDecode s with
  | none => rfl
  | some x => exact h x

theorem de_path : ∀ (t : Ty) {e : EntryPoint} {segs : List Str}, Matches e segs →
    match readPath t (variables e segs) with
      | some v => ∃ st, de t ⟨false, segs, e, varCount e⟩ = .ok (v, st)
      | none => de t ⟨false, segs, e, varCount e⟩ = .err .invalid
  | .bool, _, _, h => by rw [de]; exact scalar_first h
  | .int _, _, _, h => by rw [de]; exact scalar_first h
  | .f32, _, _, h => by rw [de]; exact scalar_first h
  | .f64, _, _, h => by rw [de]; exact scalar_first h
  | .str, _, _, h => by rw [de]; exact scalar_first h
  | .char, _, _, _ | .bytes, _, _, _ | .option _, _, _, _ | .unit, _, _, _ | .unitStruct _, _, _, _
  | .map _ _, _, _, _ | .struct _, _, _, _ | .enum _, _, _, _ => by
    rw [readPath, de_none (readSegment_none fun _ => rfl), de] <;> simp
  | .newtypeStruct t, e, segs, h => by
    have ih := de_path t h
    rw [readPath, de]
    cases hr : readPath t (variables e segs) with
    | none => rw [hr] at ih; simp only at ih; simp [ih]
    | some v =>
      rw [hr] at ih
      obtain ⟨st, hst⟩ := ih
      exact ⟨st, by simp [hst]⟩
  | .seq t, e, segs, h => by
    have ih := visitSeq_each t (varCount e) [] h rfl
    rw [readPath, de]
    simp only [enterSeq, Bool.not_false, Res.check_true, Res.bind_ok]
    cases hr : readEach t (variables e segs) with
    | none => rw [hr] at ih; simp only at ih; simp [ih]
    | some vs =>
      rw [hr] at ih
      obtain ⟨st, hst⟩ := ih
      exact ⟨st, by simp [hst]⟩
  | .tuple ts, e, segs, h => by
    have ih := deAll_take ts h
    rw [readPath, de]
    simp only [enterSeq, Bool.not_false, Res.check_true, Res.bind_ok]
    cases hr : readSegments ts ((variables e segs).take ts.length) with
    | none => rw [hr] at ih; simp only at ih; simp [ih]
    | some vs =>
      rw [hr] at ih
      obtain ⟨st, hst⟩ := ih
      exact ⟨st, by simp [hst]⟩
  | .tupleStruct ts, e, segs, h => by
    have ih := deAll_take ts h
    rw [readPath, de]
    simp only [enterSeq, Bool.not_false, Res.check_true, Res.bind_ok]
    cases hr : readSegments ts ((variables e segs).take ts.length) with
    | none => rw [hr] at ih; simp only at ih; simp [ih]
    | some vs =>
      rw [hr] at ih
      obtain ⟨st, hst⟩ := ih
      exact ⟨st, by simp [hst]⟩

end PathDe

/-- A path of any type is read from the segments at the variables. -/
theorem dePath_every {e : EntryPoint} {segs : List Str} (h : Matches e segs) (t : Ty) :
    dePath e t (some segs) = Res.ofOption (readPath t (variables e segs)) := by
  have := PathDe.de_path t h
  simp only [dePath, PathDe.new, Res.ofOption_some, Res.bind_ok]
  cases hr : readPath t (variables e segs) with
  | none => rw [hr] at this; simp only at this; rw [this]; rfl
  | some v =>
    rw [hr] at this
    obtain ⟨st, hst⟩ := this
    simp only [hst]
    rfl

omit [FloatText] in
theorem matches_sent {e : EntryPoint} (hp : PlainConsts e) (ss : List Str)
    (hc : ss.length = varCount e) : Matches e ((instantiate e ss).map encodeSegment) ∧
      variables e ((instantiate e ss).map encodeSegment) = ss.map encodeSegment := by
  induction e generalizing ss with
  | nil =>
    have : ss = [] := List.length_eq_zero_iff.1 hc
    subst this
    exact ⟨.nil, rfl⟩
  | cons s e ih =>
    have hp' : PlainConsts e := fun c hc => hp c (List.mem_cons_of_mem _ hc)
    cases s with
    | val c =>
      obtain ⟨h1, h2⟩ := ih hp' ss (by simpa using hc)
      refine ⟨.cons ?_ h1, h2⟩
      exact (encodeSegment_plain (hp c (List.mem_cons_self ..))).symm
    | var =>
      cases ss with
      | nil => simp at hc
      | cons a ss =>
        obtain ⟨h1, h2⟩ := ih hp' ss (by simpa using hc)
        refine ⟨.cons trivial h1, ?_⟩
        simp only [instantiate, List.map_cons, variables, h2]

end Htrpc
