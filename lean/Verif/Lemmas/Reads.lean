import Verif.Lemmas.Header
import Verif.Lemmas.Integrity
import Verif.Lemmas.Maps
import Verif.Lemmas.Message
import Verif.Lemmas.Query
import Verif.Lemmas.Status
import Verif.Spec.Reads

namespace Htrpc
open Spec

theorem Res.bind_assoc {α β γ : Type} (r : Res α) (f : α → Res β) (g : β → Res γ) :
    r >>= f >>= g = r >>= fun a => f a >>= g := by
  cases r <;> rfl

namespace Spec.Gives
variable {α β : Type}

theorem of_ofOption (o : Option α) : Gives (Res.ofOption o) (fun v => o = some v) := by
  cases o with
  | none => exact .inr ⟨rfl, fun v h => by cases h⟩
  | some v => exact .inl ⟨v, rfl, rfl⟩

theorem congr {r : Res α} {P Q : α → Prop} (h : Gives r P) (hq : ∀ v, P v ↔ Q v) : Gives r Q := by
  have : P = Q := funext fun v => propext (hq v)
  exact this ▸ h

theorem map {r : Res α} {P : α → Prop} (f : α → β) (h : Gives r P) :
    Gives (do let v ← r; .ok (f v)) (fun w => ∃ v, P v ∧ w = f v) := by
  rcases h with ⟨v, rfl, hv⟩ | ⟨rfl, hn⟩
  · exact .inl ⟨f v, rfl, v, hv, rfl⟩
  · exact .inr ⟨rfl, fun w ⟨v, hv, _⟩ => hn v hv⟩

theorem bind {r : Res α} {f : α → Res β} {P : α → Prop} {Q : β → Prop} (h : Gives r P)
    (hf : ∀ a, P a → Gives (f a) Q) (hn : ∀ b, Q b → ∃ a, P a) : Gives (r >>= f) Q := by
  rcases h with ⟨v, rfl, hv⟩ | ⟨rfl, hnp⟩
  · exact hf v hv
  · exact .inr ⟨rfl, fun b hb => (hn b hb).elim fun a ha => hnp a ha⟩

theorem err {P : α → Prop} (h : ∀ v, ¬ P v) : Gives (.err .invalid) P := .inr ⟨rfl, h⟩

theorem ok {P : α → Prop} {v : α} (h : P v) : Gives (.ok v) P := .inl ⟨v, rfl, h⟩

theorem ok_iff {r : Res α} {P : α → Prop} (h : Gives r P) {v : α} (hr : r = .ok v) : P v := by
  rcases h with ⟨w, hw, hp⟩ | ⟨he, _⟩
  · rw [hw] at hr; cases hr; exact hp
  · rw [he] at hr; cases hr

end Spec.Gives

/-- A value without the state that follows it. -/
theorem fst_ofOption {σ : Type} (o : Option Val) (st : σ) :
    (do
      let (v, _) ← (match o with | some v => .ok (v, st) | none => .err .invalid : Res (Val × σ))
      .ok v) = Res.ofOption o := by
  cases o <;> rfl

section
variable [FloatText]

/-! ### Queries -/

theorem deQuery_single {t : Ty} (ht : isSingle t = true) (q : Option Str) :
    deQuery t q = Res.ofOption ((formParse (q.getD [])).head?.bind fun p => readText t p.1) := by
  rw [deQuery]
  cases hp : formParse (q.getD []) with
  | nil => cases t <;> first | rfl | cases ht
  | cons p ps =>
    have h : QueryDe.nextStr (QueryDe.new (p :: ps)) = .ok (p.1, ⟨false, some p.2, ps⟩) := rfl
    cases t <;> first
      | (cases ht; done)
      | (rw [QueryDe.de, QueryDe.scalar_eq h]; exact fst_ofOption _ _)
      | rfl

theorem deQuery_gives (t : Ty) (hw : WellNamed t) (q : Option Str) :
    Gives (deQuery t q) (ReadsQuery (formParse (q.getD [])) t) := by
  have single (ht : isSingle t = true) :
      Gives (deQuery t q) (ReadsQuery (formParse (q.getD [])) t) := by
    rw [deQuery_single ht]
    refine (Gives.of_ofOption _).congr fun v => ⟨fun h => ?_, fun h => ?_⟩
    · obtain ⟨p, hp, hv⟩ := Option.bind_eq_some_iff.1 h
      exact .single ht hp hv
    · cases h with
      | single _ hp hv => rw [hp]; exact hv
      | _ => cases ht
  cases t with
  | option t =>
    rw [WellNamed] at hw
    rw [deQuery_option]
    refine ((deQuery_gives t hw q).map _).congr fun v => ⟨?_, fun h => ?_⟩
    · rintro ⟨v, h, rfl⟩; exact .some h
    · cases h with
      | some h => exact ⟨_, h, rfl⟩
      | single h => cases h
  | newtypeStruct t =>
    rw [WellNamed] at hw
    rw [deQuery_newtype]
    refine ((deQuery_gives t hw q).map _).congr fun v => ⟨?_, fun h => ?_⟩
    · rintro ⟨v, h, rfl⟩; exact .newtype h
    · cases h with
      | newtype h => exact ⟨_, h, rfl⟩
      | single h => cases h
  | struct fs =>
    rw [WellNamed] at hw
    rw [deQuery_effective hw.1]
    refine (Gives.of_ofOption _).congr fun v => ⟨.struct, fun h => ?_⟩
    cases h with
    | struct h => exact h
    | single h => cases h
  | map k t =>
    rw [deQuery_entries]
    cases hr : readEntries readText k t (formParse (q.getD [])) with
    | some es => exact .ok (.map hr (insertAll_mapOf es))
    | none =>
      refine .err fun v h => ?_
      cases h with
      | map h => rw [hr] at h; cases h
      | single h => cases h
  | _ => exact single rfl

/-! ### Headers -/

theorem deHeaders_single {t : Ty} (ht : isSingle t = true) {hs : List Header} (hn : AsciiNames hs) :
    deHeaders t hs = Res.ofOption (hs.head?.bind fun h => readBytes t (utf8 (nameText h.1))) := by
  rw [deHeaders]
  cases hs with
  | nil => cases t <;> first | rfl | cases ht
  | cons x hs =>
    have h : HeaderDe.nextBytes (HeaderDe.new (x :: hs)) =
        .ok (utf8 (nameText x.1), ⟨false, false, x :: hs⟩) := by
      rw [← lowerName_utf8 (hn x (List.mem_cons_self ..))]; rfl
    cases t <;> first
      | (cases ht; done)
      | (rw [HeaderDe.de, HeaderDe.scalar_eq h]
         simp only [List.head?_cons, Option.bind_some, readBytes]
         cases fromUtf8 (utf8 (nameText x.1)) <;> first | rfl | exact fst_ofOption _ _)
      | rfl
      | (rw [HeaderDe.de]; simp only [h]; rfl)

theorem deHeaders_gives (t : Ty) (hw : WellNamed t) {hs : List Header} (hn : AsciiNames hs) :
    Gives (deHeaders t hs) (ReadsHeaders hs t) := by
  have single (ht : isSingle t = true) : Gives (deHeaders t hs) (ReadsHeaders hs t) := by
    rw [deHeaders_single ht hn]
    refine (Gives.of_ofOption _).congr fun v => ⟨fun h => ?_, fun h => ?_⟩
    · obtain ⟨p, hp, hv⟩ := Option.bind_eq_some_iff.1 h
      exact .single ht hp hv
    · cases h with
      | single _ hp hv => rw [hp]; exact hv
      | _ => cases ht
  cases t with
  | option t =>
    rw [WellNamed] at hw
    rw [deHeaders_option]
    refine ((deHeaders_gives t hw hn).map _).congr fun v => ⟨?_, fun h => ?_⟩
    · rintro ⟨v, h, rfl⟩; exact .some h
    · cases h with
      | some h => exact ⟨_, h, rfl⟩
      | single h => cases h
  | newtypeStruct t =>
    rw [WellNamed] at hw
    rw [deHeaders_newtype]
    refine ((deHeaders_gives t hw hn).map _).congr fun v => ⟨?_, fun h => ?_⟩
    · rintro ⟨v, h, rfl⟩; exact .newtype h
    · cases h with
      | newtype h => exact ⟨_, h, rfl⟩
      | single h => cases h
  | struct fs =>
    rw [WellNamed] at hw
    rw [deHeaders_struct hw.1 hn]
    refine (Gives.of_ofOption _).congr fun v => ⟨.struct, fun h => ?_⟩
    cases h with
    | struct h => exact h
    | single h => cases h
  | map k t =>
    rw [deHeaders_entries]
    have he : (hs.map fun h => (lowerName h.1, h.2)) = hs.map fun h => (utf8 (nameText h.1), h.2) :=
      List.map_congr_left fun x hx => by rw [lowerName_utf8 (hn x hx)]
    rw [he]
    cases hr : readEntries readBytes k t (hs.map fun h => (utf8 (nameText h.1), h.2)) with
    | some es => exact .ok (.map hr (insertAll_mapOf es))
    | none =>
      refine .err fun v h => ?_
      cases h with
      | map h => rw [hr] at h; cases h
      | single h => cases h
  | _ => exact single rfl

/-! ### Messages in parts -/

/-- A part of a message: its name, how it is read and skipped, and what these are to give. -/
structure Part where
  key : Str
  rd : Ty → Res Val
  skip : Res Unit
  P : Ty → Val → Prop
  S : Prop

/-- The parts of a message one after another. -/
def readParts (fs : List (Str × Ty)) : List Part → List (Str × Val) → Res (List (Str × Val))
  | [], acc => .ok acc
  | p :: ps, acc => do
    let acc ← readPart fs p.key p.rd p.skip acc
    readParts fs ps acc

/-- A part does what it is to do for the fields `fs`. -/
def Part.Ok (fs : List (Str × Ty)) (p : Part) : Prop :=
  (∀ t, fs.lookup p.key = some t → Gives (p.rd t) (p.P t)) ∧ Gives p.skip (fun _ => p.S)

/-- What the parts give for the fields of a struct. -/
def PartField (ps : List Part) (n : Str) (t : Ty) (v : Val) : Prop :=
  match ps.find? (fun p => decide (p.key = n)) with
  | some p => p.P t v
  | none => isOption t = true ∧ v = .none

/-- The entries collected from the parts. -/
inductive Collected (fs : List (Str × Ty)) : List Part → List (Str × Val) → Prop where
  | nil : Collected fs [] []
  | read {p ps t v acc} : fs.lookup p.key = some t → p.P t v → Collected fs ps acc →
      Collected fs (p :: ps) ((p.key, v) :: acc)
  | skip {p ps acc} : fs.lookup p.key = none → p.S → Collected fs ps acc →
      Collected fs (p :: ps) acc

omit [FloatText] in
theorem readParts_gives (fs : List (Str × Ty)) (ps : List Part) (h : ∀ p ∈ ps, p.Ok fs)
    (acc : List (Str × Val)) :
    Gives (readParts fs ps acc) (fun a => ∃ b, a = acc ++ b ∧ Collected fs ps b) := by
  induction ps generalizing acc with
  | nil => exact .ok ⟨[], by simp, .nil⟩
  | cons p ps ih =>
    have hp := h p (List.mem_cons_self ..)
    have ih := ih fun q hq => h q (List.mem_cons_of_mem _ hq)
    rw [readParts, readPart]
    cases hl : fs.lookup p.key with
    | some t =>
      rcases hp.1 t hl with ⟨v, hv, hP⟩ | ⟨he, hn⟩
      · simp only [hv, Res.bind_ok]
        refine (ih (acc ++ [(p.key, v)])).imp ?_ ?_
        · rintro ⟨a, ha, b, rfl, hb⟩
          exact ⟨_, ha, _, by simp, .read hl hP hb⟩
        · rintro ⟨ha, hno⟩
          refine ⟨ha, ?_⟩
          rintro a ⟨b, rfl, hb⟩
          cases hb with
          | read _ _ hb => exact hno _ ⟨_, rfl, hb⟩
          | skip hl' => rw [hl] at hl'; cases hl'
      · simp only [he]
        refine .err ?_
        rintro a ⟨b, rfl, hb⟩
        cases hb with
        | read hl' hP' => rw [hl] at hl'; cases hl'; exact hn _ hP'
        | skip hl' => rw [hl] at hl'; cases hl'
    | none =>
      rcases hp.2 with ⟨v, hv, hS⟩ | ⟨he, hn⟩
      · simp only [hv, Res.bind_ok]
        refine (ih acc).imp ?_ ?_
        · rintro ⟨a, ha, b, rfl, hb⟩
          exact ⟨_, ha, _, rfl, .skip hl hS hb⟩
        · rintro ⟨ha, hno⟩
          refine ⟨ha, ?_⟩
          rintro a ⟨b, rfl, hb⟩
          cases hb with
          | read hl' => rw [hl] at hl'; cases hl'
          | skip _ _ hb => exact hno _ ⟨_, rfl, hb⟩
      · simp only [he]
        refine .err ?_
        rintro a ⟨b, rfl, hb⟩
        cases hb with
        | read hl' => rw [hl] at hl'; cases hl'
        | skip _ hS => exact hn () hS

omit [FloatText] in
theorem collected_of {fs : List (Str × Ty)} {ps : List Part}
    (h : ∀ p ∈ ps, (∀ t, fs.lookup p.key = some t → ∃ v, p.P t v) ∧
      (fs.lookup p.key = none → p.S)) : ∃ b, Collected fs ps b := by
  induction ps with
  | nil => exact ⟨[], .nil⟩
  | cons p ps ih =>
    obtain ⟨b, hb⟩ := ih fun q hq => h q (List.mem_cons_of_mem _ hq)
    have hp := h p (List.mem_cons_self ..)
    cases hl : fs.lookup p.key with
    | none => exact ⟨b, .skip hl (hp.2 hl) hb⟩
    | some t =>
      obtain ⟨v, hv⟩ := hp.1 t hl
      exact ⟨_, .read hl hv hb⟩

omit [FloatText] in
theorem collected_lookup {fs : List (Str × Ty)} {ps : List Part} {b : List (Str × Val)}
    (h : Collected fs ps b) {n : Str} {t : Ty} (hn : fs.lookup n = some t) :
    match b.lookup n with
    | some v => ∃ p, ps.find? (fun p => decide (p.key = n)) = some p ∧ p.P t v
    | none => ps.find? (fun p => decide (p.key = n)) = none := by
  induction h with
  | nil => rfl
  | @read p ps u v acc hl hP _ ih =>
    by_cases he : p.key = n
    · subst he
      rw [hl] at hn; cases hn
      simpa using hP
    · rw [List.lookup_cons, beq_false_of_ne fun h => he h.symm, List.find?_cons_of_neg (by simpa using he)]
      exact ih
  | @skip p ps acc hl _ _ ih =>
    have he : p.key ≠ n := by rintro rfl; rw [hl] at hn; cases hn
    rw [List.find?_cons_of_neg (by simpa using he)]
    exact ih

omit [FloatText] in
theorem fields_mem {P : Str → Ty → Val → Prop} {fs : List (Str × Ty)} {vs : List (Str × Val)}
    (h : Fields P fs vs) {n : Str} {t : Ty} (hn : (n, t) ∈ fs) : ∃ v, (n, v) ∈ vs ∧ P n t v := by
  induction h with
  | nil => cases hn
  | cons hp _ ih =>
    rcases List.mem_cons.1 hn with h | h
    · cases h; exact ⟨_, List.mem_cons_self .., hp⟩
    · obtain ⟨v, hv, hp⟩ := ih h
      exact ⟨v, List.mem_cons_of_mem _ hv, hp⟩

omit [FloatText] in
theorem fields_mono {P Q : Str → Ty → Val → Prop} {fs : List (Str × Ty)} {vs : List (Str × Val)}
    (h : Fields P fs vs) (hq : ∀ n t v, (n, t) ∈ fs → P n t v → Q n t v) : Fields Q fs vs := by
  induction h with
  | nil => exact .nil
  | cons hp _ ih =>
    exact .cons (hq _ _ _ (List.mem_cons_self ..) hp)
      (ih fun n t v hm => hq n t v (List.mem_cons_of_mem _ hm))

omit [FloatText] in
theorem collectFields_fields {value : Str → Ty → Option Val} {fs : List (Str × Ty)}
    {vs : List (Str × Val)} (h : collectFields value fs = some vs) :
    Fields (fun n t v => value n t = some v) fs vs := by
  induction fs generalizing vs with
  | nil => cases h; exact .nil
  | cons f fs ih =>
    obtain ⟨n, t⟩ := f
    rw [collectFields] at h
    split at h
    · next hv hvs => cases h; exact .cons hv (ih hvs)
    · cases h

omit [FloatText] in
theorem collectFields_none {value : Str → Ty → Option Val} {fs : List (Str × Ty)}
    (h : collectFields value fs = none) : ∃ n t, (n, t) ∈ fs ∧ value n t = none := by
  induction fs with
  | nil => cases h
  | cons f fs ih =>
    obtain ⟨n, t⟩ := f
    rw [collectFields] at h
    cases hv : value n t with
    | none => exact ⟨n, t, List.mem_cons_self .., hv⟩
    | some v =>
      cases hvs : collectFields value fs with
      | none =>
        obtain ⟨m, u, hm, hu⟩ := ih hvs
        exact ⟨m, u, List.mem_cons_of_mem _ hm, hu⟩
      | some vs => simp [hv, hvs] at h

omit [FloatText] in
theorem find_key {ps : List Part} (hk : (ps.map Part.key).Nodup) {p : Part} (hp : p ∈ ps) :
    ps.find? (fun q => decide (q.key = p.key)) = some p := by
  induction ps with
  | nil => cases hp
  | cons q ps ih =>
    rw [List.map_cons, List.nodup_cons] at hk
    rcases List.mem_cons.1 hp with h | h
    · subst h; simp
    · have : q.key ≠ p.key := fun he => hk.1 (he ▸ List.mem_map.2 ⟨p, h, rfl⟩)
      rw [List.find?_cons_of_neg (by simpa using this)]
      exact ih hk.2 h

omit [FloatText] in
theorem parts_gives (fs : List (Str × Ty)) (hd : DistinctNames fs) (ps : List Part)
    (hk : (ps.map Part.key).Nodup) (h : ∀ p ∈ ps, p.Ok fs) :
    Gives (do let a ← readParts fs ps []; assemble a fs) (fun vs =>
      (∀ p ∈ ps, fs.lookup p.key = none → p.S) ∧ Fields (PartField ps) fs vs) := by
  refine (readParts_gives fs ps h []).bind ?_ ?_
  · rintro b ⟨_, rfl, hb⟩
    rw [assemble_eq]
    have hS : ∀ p ∈ ps, fs.lookup p.key = none → p.S := by
      clear h hk
      induction hb with
      | nil => intro p hp; cases hp
      | read hl _ _ ih =>
        intro p hp hn
        rcases List.mem_cons.1 hp with h | h
        · subst h; rw [hl] at hn; cases hn
        · exact ih p h hn
      | skip hl hS _ ih =>
        intro p hp hn
        rcases List.mem_cons.1 hp with h | h
        · subst h; exact hS
        · exact ih p h hn
    cases hc : collectFields (fun n t =>
      match b.lookup n with
      | some v => some v
      | none => if isOption t then some .none else none) fs with
    | some vs =>
      refine .ok ⟨hS, fields_mono (collectFields_fields hc) fun n t v hm hv => ?_⟩
      have hl := collected_lookup hb (lookup_of_mem hd hm)
      unfold PartField
      cases hv' : b.lookup n with
      | some w =>
        rw [hv'] at hl hv
        obtain ⟨p, hp, hP⟩ := hl
        cases hv
        rw [hp]; exact hP
      | none =>
        rw [hv'] at hl hv
        dsimp only at hl hv
        rw [hl]
        split at hv
        · next ho => cases hv; exact ⟨ho, rfl⟩
        · cases hv
    | none =>
      refine .err ?_
      rintro vs ⟨-, hf⟩
      obtain ⟨n, t, hm, hv⟩ := collectFields_none hc
      obtain ⟨w, -, hw⟩ := fields_mem hf hm
      have hl := collected_lookup hb (lookup_of_mem hd hm)
      cases hv' : b.lookup n with
      | some w => rw [hv'] at hv; cases hv
      | none =>
        rw [hv'] at hl hv
        dsimp only at hl hv
        unfold PartField at hw
        rw [hl] at hw
        rw [hw.1] at hv
        cases hv
  · rintro vs ⟨hS, hf⟩
    obtain ⟨b, hb⟩ := collected_of (fs := fs) (ps := ps) fun p hp => ⟨fun t ht => by
      obtain ⟨v, -, hv⟩ := fields_mem hf (mem_of_lookup ht)
      unfold PartField at hv
      rw [find_key hk hp] at hv
      exact ⟨v, hv⟩, hS p hp⟩
    exact ⟨_, b, rfl, hb⟩

end

end Htrpc
