/-
Decoding never panics: the loops of the visitors have enough fuel, and the errors are all of kind
`Invalid`.
-/
import Verif.Lemmas.Res
import Verif.Lemmas.PathCodec
import Verif.Model.RespDe

namespace Htrpc

theorem mem_of_lookup {α : Type} {fields : List (Str × α)} {key : Str} {dec : α}
    (hl : fields.lookup key = some dec) : (key, dec) ∈ fields := by
  induction fields with
  | nil => cases hl
  | cons f fs ih =>
    obtain ⟨n, d⟩ := f
    rw [List.lookup_cons] at hl
    split at hl
    · rename_i he
      cases hl
      have : key = n := by simpa using he
      subst this
      exact List.mem_cons_self
    · exact List.mem_cons_of_mem _ (ih hl)

theorem visitStruct_sat {σ : Type} {nextKey : σ → Res (Option (Str × σ))} {ignore : σ → Res σ}
    {fields : List (Str × Dec σ)} (I : σ → Prop) (J : σ → σ → Prop) (m : σ → Nat)
    (hk : ∀ st, I st → (nextKey st).Sat fun o => ∀ k st', o = some (k, st') → J st st')
    (hi : ∀ st st', I st → J st st' → (ignore st').Sat fun s => I s ∧ m s < m st)
    (hd : ∀ f ∈ fields, ∀ st st', I st → J st st' → (f.2 st').Sat fun r => I r.2 ∧ m r.2 < m st)
    (fuel : Nat) (acc : List (Str × Val)) (st : σ) (h : I st) (hf : m st < fuel) :
    (visitStruct nextKey ignore fields fuel acc st).Sat fun r => I r.2 := by
  induction fuel generalizing acc st with
  | zero => exact absurd hf (Nat.not_lt_zero _)
  | succ fuel ih =>
    rw [visitStruct]
    refine (hk st h).bind fun o ho => ?_
    cases o with
    | none => exact h
    | some kv =>
      obtain ⟨key, st'⟩ := kv
      have hJ := ho key st' rfl
      simp only
      cases hl : fields.lookup key with
      | none =>
        simp only
        refine (hi st st' h hJ).bind fun s hs => ?_
        exact ih _ _ hs.1 (by omega)
      | some dec =>
        simp only
        cases acc.lookup key with
        | some _ => exact rfl
        | none =>
          simp only
          have hmem : (key, dec) ∈ fields := mem_of_lookup hl
          refine (hd _ hmem st st' h hJ).bind fun r hr => ?_
          exact ih _ _ hr.1 (by omega)

theorem visitMap_sat {σ : Type} {atEnd : σ → Bool} {key val : Dec σ} (I : σ → Prop)
    (J : σ → σ → Prop) (m : σ → Nat)
    (hk : ∀ st, I st → atEnd st = false → (key st).Sat fun r => J st r.2)
    (hv : ∀ st st', I st → J st st' → (val st').Sat fun r => I r.2 ∧ m r.2 < m st)
    (fuel : Nat) (acc : List (Val × Val)) (st : σ) (h : I st) (hf : m st < fuel) :
    (visitMap atEnd key val fuel acc st).Sat fun r => I r.2 := by
  induction fuel generalizing acc st with
  | zero => exact absurd hf (Nat.not_lt_zero _)
  | succ fuel ih =>
    rw [visitMap]
    cases he : atEnd st with
    | true => exact h
    | false =>
      rw [if_neg (by simp)]
      refine (hk st h he).bind fun r hr => ?_
      refine (hv st r.2 h hr).bind fun r' hr' => ?_
      exact ih _ _ hr'.1 (by omega)

theorem assemble_sat (acc : List (Str × Val)) (fs : List (Str × Ty)) :
    (assemble acc fs).Sat fun _ => True := by
  induction fs with
  | nil => exact trivial
  | cons f fs ih =>
    obtain ⟨n, t⟩ := f
    rw [assemble]
    have hm : (missingField t).Sat fun _ => True := by
      cases t <;> first | exact trivial | exact rfl
    cases acc.lookup n with
    | some v => exact ih.bind fun _ _ => trivial
    | none => exact hm.bind fun _ _ => ih.bind fun _ _ => trivial

variable [FloatText]

namespace QueryDe

/-- Number of texts left. -/
def textsLeft (st : QueryDe) : Nat :=
  2 * st.pairs.length + match st.phase with
    | none => 0
    | some _ => 1

omit [FloatText] in
theorem nextStr_sat (st : QueryDe) : st.nextStr.Sat fun r =>
    r.2.inMap = st.inMap ∧ r.2.textsLeft < st.textsLeft := by
  obtain ⟨m, ph, ps⟩ := st
  cases ph with
  | some v => exact ⟨rfl, Nat.lt_succ_self _⟩
  | none =>
    cases ps with
    | nil => exact rfl
    | cons p ps =>
      refine ⟨rfl, ?_⟩
      change 2 * ps.length + 1 < 2 * (ps.length + 1) + 0
      omega

omit [FloatText] in
theorem scalar_sat (f : Str → Option Val) (st : QueryDe) : (scalar f st).Sat fun r =>
    r.2.inMap = st.inMap ∧ r.2.textsLeft < st.textsLeft :=
  (nextStr_sat st).bind fun _ hr => Res.sat_ofOption.bind fun _ _ => hr

omit [FloatText] in
theorem enterMap_sat (st : QueryDe) : st.enterMap.Sat fun s =>
    st.inMap = false ∧ s = { st with inMap := true } :=
  Res.sat_check.bind fun _ h => ⟨by simpa using h, rfl⟩

theorem de_sat_in : ∀ (t : Ty) (st : QueryDe), st.inMap = true → (de t st).Sat fun r =>
    r.2.inMap = true ∧ r.2.textsLeft < st.textsLeft
  | .bool, st, h => by rw [de, ← h]; exact scalar_sat _ st
  | .int _, st, h => by rw [de, ← h]; exact scalar_sat _ st
  | .f32, st, h => by rw [de, ← h]; exact scalar_sat _ st
  | .f64, st, h => by rw [de, ← h]; exact scalar_sat _ st
  | .char, st, h => by rw [de]; exact rfl
  | .str, st, h => by rw [de, ← h]; exact scalar_sat _ st
  | .bytes, st, h => by rw [de, ← h]; exact scalar_sat _ st
  | .option t, st, h => by rw [de]; exact (de_sat_in t st h).bind fun _ hr => hr
  | .unit, st, h => by rw [de, ← h]; exact scalar_sat _ st
  | .unitStruct _, st, h => by rw [de, ← h]; exact scalar_sat _ st
  | .newtypeStruct t, st, h => by rw [de]; exact (de_sat_in t st h).bind fun _ hr => hr
  | .seq _, st, h => by rw [de]; exact rfl
  | .tuple _, st, h => by rw [de]; exact rfl
  | .tupleStruct _, st, h => by rw [de]; exact rfl
  | .map _ _, st, h => by
    rw [de]
    refine (enterMap_sat st).bind fun _ hr => ?_
    exact absurd hr.1 (by rw [h]; decide)
  | .struct _, st, h => by
    rw [de]
    refine (enterMap_sat st).bind fun _ hr => ?_
    exact absurd hr.1 (by rw [h]; decide)
  | .enum _, st, h => by rw [de]; exact rfl

theorem mem_deFields {fs : List (Str × Ty)} {f : Str × Dec QueryDe} (h : f ∈ deFields fs) :
    ∃ t, f.2 = de t := by
  induction fs with
  | nil => rw [deFields] at h; cases h
  | cons x fs ih =>
    obtain ⟨n, t⟩ := x
    rw [deFields] at h
    rcases List.mem_cons.1 h with rfl | h
    · exact ⟨t, rfl⟩
    · exact ih h

omit [FloatText] in
theorem textsLeft_lt_fuel (st : QueryDe) : st.textsLeft < st.fuel := by
  rw [textsLeft, fuel]
  cases st.phase <;> simp only <;> omega

omit [FloatText] in
theorem nextKey_sat (st : QueryDe) (h : st.inMap = true) : (nextKey st).Sat fun o =>
    ∀ k st', o = some (k, st') → st'.inMap = true ∧ st'.textsLeft < st.textsLeft := by
  rw [nextKey]
  split
  · intro k st' h; cases h
  · refine (nextStr_sat st).bind fun r hr => ?_
    intro k st' he
    cases he
    exact ⟨hr.1.trans h, hr.2⟩

theorem de_sat : ∀ (t : Ty) (st : QueryDe), (de t st).Sat fun _ => True
  | .bool, st => by rw [de]; exact (scalar_sat _ st).mono fun _ _ => trivial
  | .int _, st => by rw [de]; exact (scalar_sat _ st).mono fun _ _ => trivial
  | .f32, st => by rw [de]; exact (scalar_sat _ st).mono fun _ _ => trivial
  | .f64, st => by rw [de]; exact (scalar_sat _ st).mono fun _ _ => trivial
  | .char, st => by rw [de]; exact rfl
  | .str, st => by rw [de]; exact (scalar_sat _ st).mono fun _ _ => trivial
  | .bytes, st => by rw [de]; exact (scalar_sat _ st).mono fun _ _ => trivial
  | .option t, st => by rw [de]; exact (de_sat t st).bind fun _ _ => trivial
  | .unit, st => by rw [de]; exact (scalar_sat _ st).mono fun _ _ => trivial
  | .unitStruct _, st => by rw [de]; exact (scalar_sat _ st).mono fun _ _ => trivial
  | .newtypeStruct t, st => by rw [de]; exact (de_sat t st).bind fun _ _ => trivial
  | .seq _, st => by rw [de]; exact rfl
  | .tuple _, st => by rw [de]; exact rfl
  | .tupleStruct _, st => by rw [de]; exact rfl
  | .map k v, st => by
    rw [de]
    refine (enterMap_sat st).bind fun s hs => ?_
    have hs' : s.inMap = true := by rw [hs.2]
    refine (visitMap_sat (fun s => s.inMap = true)
      (fun st st' => st'.inMap = true ∧ st'.textsLeft < st.textsLeft) textsLeft ?_ ?_ _ _ _ hs'
      (textsLeft_lt_fuel s)).bind fun _ _ => trivial
    · intro st h _
      exact de_sat_in k st h
    · intro st st' _ hJ
      exact (de_sat_in v st' hJ.1).mono fun _ hr => ⟨hr.1, Nat.lt_trans hr.2 hJ.2⟩
  | .struct fs, st => by
    rw [de]
    refine (enterMap_sat st).bind fun s hs => ?_
    have hs' : s.inMap = true := by rw [hs.2]
    refine (visitStruct_sat (fun s => s.inMap = true)
      (fun st st' => st'.inMap = true ∧ st'.textsLeft < st.textsLeft) textsLeft ?_ ?_ ?_ _ _ _ hs'
      (textsLeft_lt_fuel s)).bind fun r _ => (assemble_sat _ _).bind fun _ _ => trivial
    · exact nextKey_sat
    · intro st st' _ hJ
      exact hJ
    · intro f hf st st' _ hJ
      obtain ⟨t, ht⟩ := mem_deFields hf
      rw [ht]
      exact (de_sat_in t st' hJ.1).mono fun _ hr => ⟨hr.1, Nat.lt_trans hr.2 hJ.2⟩
  | .enum _, st => by rw [de]; exact rfl

end QueryDe

theorem deQuery_sat (t : Ty) (q : Option Str) : (deQuery t q).Sat fun _ => True :=
  (QueryDe.de_sat t _).bind fun _ _ => trivial

namespace HeaderDe

/-- The step of the phases. -/
def Moved (st st' : HeaderDe) : Prop :=
  st'.inMap = st.inMap ∧ st.headers ≠ [] ∧ st'.atKey = !st.atKey ∧
    st'.headers = if st.atKey then st.headers else st.headers.tail

omit [FloatText] in
theorem nextBytes_sat (st : HeaderDe) : st.nextBytes.Sat fun r => Moved st r.2 := by
  obtain ⟨m, k, hs⟩ := st
  cases hs with
  | nil => exact rfl
  | cons h hs =>
    cases k with
    | true => exact ⟨rfl, by simp, rfl, rfl⟩
    | false => exact ⟨rfl, by simp, rfl, rfl⟩

omit [FloatText] in
theorem nextStr_sat (st : HeaderDe) : st.nextStr.Sat fun r => Moved st r.2 :=
  (nextBytes_sat st).bind fun _ hr => Res.sat_ofOption.bind fun _ _ => hr

omit [FloatText] in
theorem scalar_sat (f : Str → Option Val) (st : HeaderDe) : (scalar f st).Sat fun r =>
    Moved st r.2 :=
  (nextStr_sat st).bind fun _ hr => Res.sat_ofOption.bind fun _ _ => hr

omit [FloatText] in
theorem enterMap_sat (st : HeaderDe) : st.enterMap.Sat fun s =>
    st.inMap = false ∧ s = { st with inMap := true } :=
  Res.sat_check.bind fun _ h => ⟨by simpa using h, rfl⟩

theorem de_sat_in : ∀ (t : Ty) (st : HeaderDe), st.inMap = true → (de t st).Sat fun r =>
    Moved st r.2
  | .bool, st, h => by rw [de]; exact scalar_sat _ st
  | .int _, st, h => by rw [de]; exact scalar_sat _ st
  | .f32, st, h => by rw [de]; exact scalar_sat _ st
  | .f64, st, h => by rw [de]; exact scalar_sat _ st
  | .char, st, h => by rw [de]; exact rfl
  | .str, st, h => by rw [de]; exact scalar_sat _ st
  | .bytes, st, h => by rw [de]; exact (nextBytes_sat st).bind fun _ hr => hr
  | .option t, st, h => by rw [de]; exact (de_sat_in t st h).bind fun _ hr => hr
  | .unit, st, h => by rw [de]; exact rfl
  | .unitStruct _, st, h => by rw [de]; exact scalar_sat _ st
  | .newtypeStruct t, st, h => by rw [de]; exact (de_sat_in t st h).bind fun _ hr => hr
  | .seq _, st, h => by rw [de]; exact rfl
  | .tuple _, st, h => by rw [de]; exact rfl
  | .tupleStruct _, st, h => by rw [de]; exact rfl
  | .map _ _, st, h => by
    rw [de]
    refine (enterMap_sat st).bind fun _ hr => ?_
    exact absurd hr.1 (by rw [h]; decide)
  | .struct _, st, h => by
    rw [de]
    refine (enterMap_sat st).bind fun _ hr => ?_
    exact absurd hr.1 (by rw [h]; decide)
  | .enum _, st, h => by rw [de]; exact rfl

theorem mem_deFields {fs : List (Str × Ty)} {f : Str × Dec HeaderDe} (h : f ∈ deFields fs) :
    ∃ t, f.2 = de t := by
  induction fs with
  | nil => rw [deFields] at h; cases h
  | cons x fs ih =>
    obtain ⟨n, t⟩ := x
    rw [deFields] at h
    rcases List.mem_cons.1 h with rfl | h
    · exact ⟨t, rfl⟩
    · exact ih h

omit [FloatText] in
theorem nextKey_sat (st : HeaderDe) : (nextKey st).Sat fun o =>
    ∀ k st', o = some (k, st') → Moved st st' := by
  rw [nextKey]
  split
  · intro k st' h; cases h
  · refine (nextStr_sat st).bind fun r hr => ?_
    intro k st' he
    cases he
    exact hr

/-- At a key, inside the map. -/
def AtKey (st : HeaderDe) : Prop := st.inMap = true ∧ st.atKey = true

omit [FloatText] in
theorem moved_twice {a b c : HeaderDe} (h : AtKey a) (h1 : Moved a b) (h2 : Moved b c) :
    AtKey c ∧ c.headers.length < a.headers.length := by
  obtain ⟨h11, h12, h13, h14⟩ := h1
  obtain ⟨h21, h22, h23, h24⟩ := h2
  rw [h.2] at h13 h14
  rw [h13] at h23 h24
  rw [if_pos rfl] at h14
  rw [if_neg (by decide), h14] at h24
  refine ⟨⟨h21.trans (h11.trans h.1), h23⟩, ?_⟩
  rw [h24]
  cases ha : a.headers with
  | nil => exact absurd ha h12
  | cons x xs => exact Nat.lt_succ_self _

theorem de_sat : ∀ (t : Ty) (st : HeaderDe), st.atKey = true → (de t st).Sat fun _ => True
  | .bool, st, _ => by rw [de]; exact (scalar_sat _ st).mono fun _ _ => trivial
  | .int _, st, _ => by rw [de]; exact (scalar_sat _ st).mono fun _ _ => trivial
  | .f32, st, _ => by rw [de]; exact (scalar_sat _ st).mono fun _ _ => trivial
  | .f64, st, _ => by rw [de]; exact (scalar_sat _ st).mono fun _ _ => trivial
  | .char, st, _ => by rw [de]; exact rfl
  | .str, st, _ => by rw [de]; exact (scalar_sat _ st).mono fun _ _ => trivial
  | .bytes, st, _ => by rw [de]; exact (nextBytes_sat st).bind fun _ _ => trivial
  | .option t, st, h => by rw [de]; exact (de_sat t st h).bind fun _ _ => trivial
  | .unit, st, _ => by rw [de]; exact rfl
  | .unitStruct _, st, _ => by rw [de]; exact (scalar_sat _ st).mono fun _ _ => trivial
  | .newtypeStruct t, st, h => by rw [de]; exact (de_sat t st h).bind fun _ _ => trivial
  | .seq _, st, _ => by rw [de]; exact rfl
  | .tuple _, st, _ => by rw [de]; exact rfl
  | .tupleStruct _, st, _ => by rw [de]; exact rfl
  | .map k v, st, h => by
    rw [de]
    refine (enterMap_sat st).bind fun s hs => ?_
    have hs' : AtKey s := by rw [hs.2]; exact ⟨rfl, h⟩
    refine (visitMap_sat AtKey Moved (fun s => s.headers.length) ?_ ?_ _ _ _ hs'
      (Nat.lt_succ_self _)).bind fun _ _ => trivial
    · intro st h _
      exact de_sat_in k st h.1
    · intro st st' h hJ
      exact (de_sat_in v st' (hJ.1.trans h.1)).mono fun _ hr => moved_twice h hJ hr
  | .struct fs, st, h => by
    rw [de]
    refine (enterMap_sat st).bind fun s hs => ?_
    have hs' : AtKey s := by rw [hs.2]; exact ⟨rfl, h⟩
    refine (visitStruct_sat AtKey Moved (fun s => s.headers.length) ?_ ?_ ?_ _ _ _ hs'
      (Nat.lt_succ_self _)).bind fun r _ => (assemble_sat _ _).bind fun _ _ => trivial
    · intro st _
      exact nextKey_sat st
    · intro st st' h hJ
      exact (nextBytes_sat st').bind fun _ hr => moved_twice h hJ hr
    · intro f hf st st' h hJ
      obtain ⟨t, ht⟩ := mem_deFields hf
      rw [ht]
      exact (de_sat_in t st' (hJ.1.trans h.1)).mono fun _ hr => moved_twice h hJ hr
  | .enum _, st, _ => by rw [de]; exact rfl

end HeaderDe

theorem deHeaders_sat (t : Ty) (hs : List Header) : (deHeaders t hs).Sat fun _ => True :=
  (HeaderDe.de_sat t _ rfl).bind fun _ _ => trivial

omit [FloatText] in
theorem ignoreHeaders_sat (hs : List Header) : (ignoreHeaders hs).Sat fun _ => True :=
  Res.Sat.bind (P := fun _ => True)
    ((HeaderDe.nextBytes_sat _).bind fun _ _ => trivial) fun _ _ => trivial

omit [FloatText] in
theorem strKey_sat (s : Str) (t : Ty) : (strKey s t).Sat fun _ => True := by
  cases t <;> simp only [strKey] <;> try first | exact trivial | exact rfl
  split
  · exact trivial
  · exact rfl

namespace ReqDe

/-- Values left. -/
def left : ReqPhase → Nat
  | .init => 3
  | .path => 2
  | .query => 1
  | .header => 0

theorem value_sat (i : ReqInput) (t : Ty) (p : ReqPhase) (h : p ≠ .init) :
    (value i t p).Sat fun r => r.2 = p := by
  cases p with
  | init => exact absurd rfl h
  | path => exact (dePath_sat i.entry t _).bind fun _ _ => rfl
  | query => exact (deQuery_sat t _).bind fun _ _ => rfl
  | header => exact (deHeaders_sat t _).bind fun _ _ => rfl

omit [FloatText] in
theorem ignore_sat (i : ReqInput) (p : ReqPhase) (h : p ≠ .init) :
    (ignore i p).Sat fun r => r = p := by
  cases p with
  | init => exact absurd rfl h
  | path =>
    refine Res.Sat.bind (P := fun _ => True) ?_ fun _ _ => rfl
    exact Res.sat_ofOption.bind fun _ _ => trivial
  | query => exact rfl
  | header => exact (ignoreHeaders_sat _).bind fun _ _ => rfl

omit [FloatText] in
theorem next_left {p q : ReqPhase} {s : Str} (h : next p = some (s, q)) :
    q ≠ .init ∧ left q < left p := by
  cases p <;> cases h <;> exact ⟨by decide, by decide⟩

theorem de_sat (i : ReqInput) : ∀ t : Ty, (de i t).Sat fun _ => True
  | .newtypeStruct t => by rw [de]; exact (de_sat i t).bind fun _ _ => trivial
  | .struct fs => by
    rw [de]
    refine (visitStruct_sat (fun _ => True) (fun p q => q ≠ .init ∧ left q < left p) left
      ?_ ?_ ?_ 4 [] .init trivial (by decide)).bind fun _ _ =>
        (assemble_sat _ _).bind fun _ _ => trivial
    · intro p _ k q h
      exact next_left h
    · intro p q _ h
      exact (ignore_sat i q h.1).mono fun r hr => ⟨trivial, by rw [hr]; exact h.2⟩
    · intro f hf p q _ h
      obtain ⟨g, _, rfl⟩ := List.mem_map.1 hf
      exact (value_sat i _ q h.1).mono fun r hr => ⟨trivial, by rw [hr]; exact h.2⟩
  | .map k v => by
    rw [de]
    refine (visitMap_sat (fun _ => True) (fun p q => q ≠ .init ∧ left q < left p) left
      ?_ ?_ 4 [] .init trivial (by decide)).bind fun _ _ => trivial
    · intro p _ _
      cases hn : next p with
      | none => exact rfl
      | some q => exact (strKey_sat _ _).bind fun _ _ => next_left hn
    · intro p q _ h
      exact (value_sat i _ q h.1).mono fun r hr => ⟨trivial, by rw [hr]; exact h.2⟩
  | .bool | .int _ | .f32 | .f64 | .char | .str | .bytes | .option _ | .unit | .unitStruct _
  | .seq _ | .tuple _ | .tupleStruct _ | .enum _ => by rw [de] <;> first | exact rfl | simp

end ReqDe

theorem deRequest_sat (e : EntryPoint) (t : Ty) (target : Target) (hs : List Header) :
    (deRequest e t target hs).Sat fun _ => True := ReqDe.de_sat _ t

namespace RespDe

/-- Values left. -/
def left : RespPhase → Nat
  | .init => 2
  | .status => 1
  | .header => 0

theorem deU16_sat (n : Nat) (t : Ty) : (deU16 n t).Sat fun _ => True := by
  cases t <;> simp only [deU16] <;> try first | exact trivial | exact rfl
  split
  · exact trivial
  · exact rfl

theorem value_sat (i : RespInput) (t : Ty) (p : RespPhase) (h : p ≠ .init) :
    (value i t p).Sat fun r => r.2 = p := by
  cases p with
  | init => exact absurd rfl h
  | status => exact (deU16_sat _ t).bind fun _ _ => rfl
  | header => exact (deHeaders_sat t _).bind fun _ _ => rfl

omit [FloatText] in
theorem ignore_sat (i : RespInput) (p : RespPhase) (h : p ≠ .init) :
    (ignore i p).Sat fun r => r = p := by
  cases p with
  | init => exact absurd rfl h
  | status => exact rfl
  | header => exact (ignoreHeaders_sat _).bind fun _ _ => rfl

omit [FloatText] in
theorem next_left {p q : RespPhase} {s : Str} (h : next p = some (s, q)) :
    q ≠ .init ∧ left q < left p := by
  cases p <;> cases h <;> exact ⟨by decide, by decide⟩

omit [FloatText] in
theorem left_lt (p : RespPhase) : left p < 3 := by cases p <;> decide

theorem deStruct_sat (i : RespInput) (fs : List (Str × Ty)) (p : RespPhase) :
    (deStruct i fs p).Sat fun _ => True := by
  rw [deStruct]
  refine (visitStruct_sat (fun _ => True) (fun p q => q ≠ .init ∧ left q < left p) left
    ?_ ?_ ?_ 3 [] p trivial (left_lt p)).bind fun _ _ => assemble_sat _ _
  · intro p _ k q h
    exact next_left h
  · intro p q _ h
    exact (ignore_sat i q h.1).mono fun r hr => ⟨trivial, by rw [hr]; exact h.2⟩
  · intro f hf p q _ h
    obtain ⟨g, _, rfl⟩ := List.mem_map.1 hf
    exact (value_sat i _ q h.1).mono fun r hr => ⟨trivial, by rw [hr]; exact h.2⟩

mutual
theorem de_sat (i : RespInput) : ∀ (t : Ty) (p : RespPhase), (de i t p).Sat fun _ => True
  | .newtypeStruct t, p => by rw [de]; exact (de_sat i t p).bind fun _ _ => trivial
  | .struct fs, p => by rw [de]; exact (deStruct_sat i fs p).bind fun _ _ => trivial
  | .map k v, p => by
    rw [de]
    refine (visitMap_sat (fun _ => True) (fun p q => q ≠ .init ∧ left q < left p) left
      ?_ ?_ 3 [] p trivial (left_lt p)).bind fun _ _ => trivial
    · intro p _ _
      cases hn : next p with
      | none => exact rfl
      | some q => exact (strKey_sat _ _).bind fun _ _ => next_left hn
    · intro p q _ h
      exact (value_sat i _ q h.1).mono fun r hr => ⟨trivial, by rw [hr]; exact h.2⟩
  | .enum vs, p => by rw [de]; exact Res.sat_ofOption.bind fun n _ => deVariant_sat i n vs
  | .bool, _ | .int _, _ | .f32, _ | .f64, _ | .char, _ | .str, _ | .bytes, _ | .option _, _
  | .unit, _ | .unitStruct _, _ | .seq _, _ | .tuple _, _ | .tupleStruct _, _ => by
    rw [de] <;> first | exact rfl | simp
theorem deVariant_sat (i : RespInput) (name : Str) : ∀ vs : List (Str × VTy),
    (deVariant i name vs).Sat fun _ => True
  | [] => by rw [deVariant]; exact rfl
  | (n, vt) :: vs => by
    rw [deVariant]
    split
    · exact deContent_sat i name vt
    · exact deVariant_sat i name vs
theorem deContent_sat (i : RespInput) (name : Str) : ∀ vt : VTy,
    (deContent i name vt).Sat fun _ => True
  | .unit => by rw [deContent]; exact trivial
  | .newtype t => by rw [deContent]; exact (de_sat i t .status).bind fun _ _ => trivial
  | .tuple _ => by rw [deContent]; exact rfl
  | .struct fs => by rw [deContent]; exact (deStruct_sat i fs .status).bind fun _ _ => trivial
end

end RespDe

theorem deResponse_sat (t : Ty) (code : Nat) (hs : List Header) :
    (deResponse t code hs).Sat fun _ => True := RespDe.de_sat _ t _

end Htrpc
