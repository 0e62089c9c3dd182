/-
C32 to C36: problem documents and problem responses.
-/
import Verif.Lemmas.Problem
import Verif.Lemmas.ToyJson
import Verif.Props.Response

namespace Htrpc
open Spec

/-! ### C34: documents -/

section
variable [UrlText]

omit [UrlText] in
theorem readStrs_iff (j : Json) (h : List Str) :
    Problem.readStrs j = some h ↔ j = .arr (h.map .str) := by
  constructor
  · intro hj
    cases j with
    | arr xs =>
      rw [Problem.readStrs] at hj
      congr 1
      induction xs generalizing h with
      | nil => simp at hj; subst hj; rfl
      | cons x xs ih =>
        rw [List.mapM_cons] at hj
        simp only [Option.bind_eq_bind, Option.bind_eq_some_iff, Option.pure_def,
          Option.some.injEq] at hj
        obtain ⟨s, hs, t, ht, rfl⟩ := hj
        cases x with
        | str _ => cases hs; rw [List.map_cons, ih t ht]
        | _ => cases hs
    | _ => cases hj
  · rintro rfl
    rw [Problem.readStrs]
    induction h with
    | nil => rfl
    | cons s h ih => rw [List.map_cons, List.mapM_cons, ih]; rfl

omit [UrlText] in
theorem readStr_iff (j : Json) (s : Str) : Problem.readStr j = some s ↔ j = .str s := by
  cases j <;> simp [Problem.readStr]

omit [UrlText] in
theorem readU16_iff (j : Json) (n : UInt16) :
    Problem.readU16 j = some n ↔ j = .num n.toNat := by
  cases j with
  | num i =>
    simp only [Problem.readU16, Json.num.injEq]
    have hn : n.toNat < 65536 := n.toNat_lt
    constructor
    · intro h
      split at h
      · rename_i hi
        cases h
        rw [UInt16.toNat_ofNat']
        omega
      · cases h
    · rintro rfl
      rw [if_pos (by omega)]
      simp
  | _ => simp [Problem.readU16]

theorem readUrl_iff (j : Json) (u : UrlText.Url) :
    Problem.readUrl j = some u ↔ ∃ s, j = .str s ∧ UrlText.parse s = some u := by
  cases j <;> simp [Problem.readUrl]

omit [UrlText] in
theorem readOpt_iff {α : Type} {read : Json → Option α} {means : Json → α → Prop}
    (h : ∀ j a, read j = some a ↔ means j a) (hn : ∀ a, ¬ means .null a) (js : List Json)
    (o : Option α) :
    (∃ x, Problem.after (Problem.readOpt read) none js = some x ∧ x.getD none = o) ↔
      OptMember means js o := by
  have hnull : read .null = none := by
    cases hr : read .null with
    | none => rfl
    | some a => exact absurd ((h _ _).1 hr) (hn a)
  constructor
  · rintro ⟨x, hx, rfl⟩
    cases x with
    | none => exact .inl (Problem.after_none_none.1 hx)
    | some y =>
      obtain ⟨j, rfl, hj⟩ := Problem.after_none_some.1 hx
      cases y with
      | none =>
        refine .inr ?_
        cases j <;> simp_all [Problem.readOpt]
      | some a =>
        refine ⟨j, rfl, (h _ _).1 ?_⟩
        cases j <;> simp_all [Problem.readOpt]
  · intro hm
    cases o with
    | none =>
      rcases hm with rfl | rfl
      · exact ⟨none, rfl, rfl⟩
      · exact ⟨some none, rfl, rfl⟩
    | some a =>
      obtain ⟨j, rfl, hj⟩ := hm
      refine ⟨some (some a), Problem.after_none_some.2 ⟨j, rfl, ?_⟩, rfl⟩
      have := (h _ _).2 hj
      cases j <;> simp_all [Problem.readOpt]

omit [UrlText] in
theorem readTag_iff (j : Json) (t : Problem.Tag) :
    Problem.readTag j = some t ↔
      j = .str (match t with
        | .aboutBlank => Problem.aboutBlankTag
        | .trackable => Problem.trackableTag) := by
  have hne : Problem.trackableTag ≠ Problem.aboutBlankTag := by decide
  cases j with
  | str s =>
    simp only [Problem.readTag, Json.str.injEq]
    constructor
    · intro h
      split at h
      · rename_i hs; cases h; exact hs
      · split at h
        · rename_i hs; cases h; exact hs
        · cases h
    · rintro rfl
      cases t
      · rw [if_pos rfl]
      · rw [if_neg hne, if_pos rfl]
  | _ => simp [Problem.readTag]

/-- **C34.** An object is read as a problem exactly if its members describe it: members occur once,
optional ones may be missing or null, their order and other members do not matter. -/
theorem C34_document_iff (ms : List (Str × Json)) (p : Problem) :
    Problem.ofJson (.obj ms) = some p ↔ Describes ms p := by
  have hf (key : Str) (h : key ≠ "type".toList) := Problem.members_filter ms h
  rw [Problem.ofJson]
  simp only [Option.bind_eq_bind, Option.bind_eq_some_iff, Prod.exists, Problem.splitTag_iff,
    Problem.after_none_some]
  constructor
  · rintro ⟨tag, rest, ⟨⟨j, hj, ht⟩, rfl⟩, h⟩
    rw [readTag_iff] at ht
    subst ht
    rw [List.nil_append] at h
    cases tag with
    | aboutBlank =>
      simp only [Problem.ofMembers, Option.bind_eq_bind, Option.bind_eq_some_iff,
        Problem.visit_aboutBlank, Problem.finishAboutBlank, hf "title".toList (by decide),
        hf "status".toList (by decide), Problem.Fields.new, Option.some.injEq] at h
      obtain ⟨f, ⟨h1, h2, -, -, -⟩, t, ht, s, hs, rfl⟩ := h
      rw [ht, Problem.after_none_some] at h1
      rw [hs, Problem.after_none_some] at h2
      simp only [readStr_iff, readU16_iff] at h1 h2
      obtain ⟨_, h1, rfl⟩ := h1
      obtain ⟨_, h2, rfl⟩ := h2
      exact ⟨hj, h1, h2⟩
    | trackable =>
      simp only [Problem.ofMembers, Option.bind_eq_bind, Option.bind_eq_some_iff,
        Problem.visit_trackable, Problem.finishTrackable, hf "title".toList (by decide),
        hf "status".toList (by decide), hf "detail".toList (by decide),
        hf "instance".toList (by decide), hf "history".toList (by decide), Problem.Fields.new,
        Option.some.injEq] at h
      obtain ⟨f, ⟨h1, h2, h3, h4, h5⟩, t, ht, s, hs, rfl⟩ := h
      rw [ht, Problem.after_none_some] at h1
      rw [hs, Problem.after_none_some] at h2
      simp only [readStr_iff, readU16_iff] at h1 h2
      obtain ⟨_, h1, rfl⟩ := h1
      obtain ⟨_, h2, rfl⟩ := h2
      refine ⟨hj, h1, h2, ?_, ?_, ?_⟩
      · exact (readOpt_iff readStr_iff (by simp) _ _).1 ⟨_, h3, rfl⟩
      · exact (readOpt_iff readUrl_iff (by simp) _ _).1 ⟨_, h4, rfl⟩
      · exact (readOpt_iff readStrs_iff (by simp) _ _).1 ⟨_, h5, rfl⟩
  · intro h
    cases p with
    | aboutBlank p =>
      obtain ⟨h0, h1, h2⟩ := h
      refine ⟨.aboutBlank, _, ⟨⟨_, h0, (readTag_iff _ _).2 rfl⟩, rfl⟩, ?_⟩
      rw [List.nil_append]
      simp only [Problem.ofMembers, Option.bind_eq_bind, Option.bind_eq_some_iff,
        Problem.visit_aboutBlank, Problem.finishAboutBlank, hf "title".toList (by decide),
        hf "status".toList (by decide), Problem.Fields.new, Option.some.injEq]
      exact ⟨⟨some p.title, some p.status, none, none, none⟩,
        ⟨Problem.after_none_some.2 ⟨_, h1, (readStr_iff _ _).2 rfl⟩,
          Problem.after_none_some.2 ⟨_, h2, (readU16_iff _ _).2 rfl⟩, rfl, rfl, rfl⟩,
        _, rfl, _, rfl, rfl⟩
    | trackable p =>
      obtain ⟨h0, h1, h2, h3, h4, h5⟩ := h
      refine ⟨.trackable, _, ⟨⟨_, h0, (readTag_iff _ _).2 rfl⟩, rfl⟩, ?_⟩
      rw [List.nil_append]
      simp only [Problem.ofMembers, Option.bind_eq_bind, Option.bind_eq_some_iff,
        Problem.visit_trackable, Problem.finishTrackable, hf "title".toList (by decide),
        hf "status".toList (by decide), hf "detail".toList (by decide),
        hf "instance".toList (by decide), hf "history".toList (by decide), Problem.Fields.new,
        Option.some.injEq]
      obtain ⟨x, h3, e3⟩ := (readOpt_iff readStr_iff (by simp) _ _).2 h3
      obtain ⟨y, h4, e4⟩ := (readOpt_iff readUrl_iff (by simp) _ _).2 h4
      obtain ⟨z, h5, e5⟩ := (readOpt_iff readStrs_iff (by simp) _ _).2 h5
      refine ⟨⟨some p.title, some p.status, x, y, z⟩,
        ⟨Problem.after_none_some.2 ⟨_, h1, (readStr_iff _ _).2 rfl⟩,
          Problem.after_none_some.2 ⟨_, h2, (readU16_iff _ _).2 rfl⟩, h3, h4, h5⟩,
        _, rfl, _, rfl, ?_⟩
      simp only [e3, e4, e5]

omit [UrlText] in
theorem readOpt_elem {α : Type} {read : Json → Option α} {means : Json → α → Prop}
    (h : ∀ j a, read j = some a ↔ means j a) (hn : ∀ a, ¬ means .null a) (x : Option Json)
    (o : Option α) :
    Problem.element read x = some o ↔ OptMember means x.toList o := by
  rw [← readOpt_iff h hn]
  cases x with
  | none => simp [Problem.after, Problem.element]
  | some j =>
    simp only [Option.toList, Problem.element, Problem.after, Problem.once]
    cases Problem.readOpt read j <;> simp

/-- **C34**, also for the array form: a JSON value is read as a problem exactly if it stands for
it. -/
theorem C34_any_document_iff (j : Json) (p : Problem) :
    Problem.ofJson j = some p ↔ IsProblem j p := by
  constructor
  · intro h
    cases j with
    | obj ms => exact .obj ((C34_document_iff ms p).1 h)
    | arr xs =>
      refine .arr ?_
      cases xs with
      | nil => cases h
      | cons t xs =>
        simp only [Problem.ofJson, Option.bind_eq_bind, Option.bind_eq_some_iff] at h
        obtain ⟨tag, ht, h⟩ := h
        rw [readTag_iff] at ht
        subst ht
        rw [Problem.ofElements.eq_def] at h
        split at h
        · simp only [Option.bind_eq_bind, Option.bind_eq_some_iff, readStr_iff, readU16_iff,
            Option.some.injEq] at h
          obtain ⟨_, rfl, _, rfl, rfl⟩ := h
          rfl
        · rename_i rest
          simp only [Option.bind_eq_bind, Option.bind_eq_some_iff, readStr_iff, readU16_iff,
            Option.ite_none_right_eq_some, Option.some.injEq, readOpt_elem readStr_iff (by simp),
            readOpt_elem readUrl_iff (by simp), readOpt_elem readStrs_iff (by simp)] at h
          obtain ⟨_, rfl, _, rfl, _, h1, _, h2, _, h3, h4, rfl⟩ := h
          exact ⟨rest, h4, rfl, h1, h2, h3⟩
        · cases h
    | _ => cases h
  · intro h
    cases h with
    | obj h => exact (C34_document_iff _ p).2 h
    | arr h =>
      cases p with
      | aboutBlank p =>
        rw [DescribesArray] at h
        subst h
        simp only [Problem.ofJson]
        rw [show Problem.readTag (.str "about:blank".toList) = some .aboutBlank from
          (readTag_iff _ _).2 rfl]
        simp [Problem.ofElements, Problem.readStr, (readU16_iff _ _).2 rfl]
      | trackable p =>
        obtain ⟨rest, h0, rfl, h1, h2, h3⟩ := h
        change Problem.ofJson (.arr (.str Problem.trackableTag :: _)) = _
        simp only [Problem.ofJson]
        rw [show Problem.readTag (.str Problem.trackableTag) = some .trackable from
          (readTag_iff _ _).2 rfl]
        simp only [Option.bind_eq_bind, Option.bind_some, Problem.ofElements,
          (readStr_iff _ _).2 rfl, (readU16_iff _ _).2 rfl, Option.bind_eq_some_iff,
          readOpt_elem readStr_iff (by simp), readOpt_elem readUrl_iff (by simp),
          readOpt_elem readStrs_iff (by simp)]
        exact ⟨_, h1, _, h2, _, h3, if_pos h0⟩

omit [UrlText] in
theorem members_append (a b : List (Str × Json)) (key : Str) :
    members (a ++ b) key = members a key ++ members b key := by
  simp [members]

omit [UrlText] in
theorem members_opt {α : Type} (k key : Str) (f : α → Json) (o : Option α) :
    members (Problem.optMember k f o) key = if k = key then (o.map f).toList else [] := by
  cases o <;> simp [Problem.optMember, members] <;> split <;> simp_all

omit [UrlText] in
theorem members_lits {k : Str} {j : Json} {ms : List (Str × Json)} {key : Str} :
    members ((k, j) :: ms) key = if k = key then j :: members ms key else members ms key := by
  split
  · rename_i h; subst h; exact Problem.members_cons_eq _ _ _
  · rename_i h; exact Problem.members_cons_ne h _ _

omit [UrlText] in
theorem optMember_opt {α : Type} {means : Json → α → Prop} {f : α → Json}
    (h : ∀ a, means (f a) a) (o : Option α) : OptMember means (o.map f).toList o := by
  cases o with
  | none => exact .inl rfl
  | some a => exact ⟨f a, rfl, h a⟩

/-- **C34.** A problem is rendered as an object that describes it; absent members are left out
rather than null. -/
theorem C34_rendered (p : Problem) :
    ∃ ms, p.toJson = .obj ms ∧ Describes ms p ∧ (∀ m ∈ ms, m.2 ≠ .null) := by
  have nil (key : Str) : members [] key = [] := rfl
  cases p with
  | aboutBlank p =>
    refine ⟨_, rfl, ⟨rfl, rfl, rfl⟩, ?_⟩
    simp
  | trackable p =>
    refine ⟨_, rfl, ⟨?_, ?_, ?_, ?_, ?_, ?_⟩, ?_⟩
    · simp [members_append, members_opt, members_lits]
      decide
    · simp [members_append, members_opt, members_lits]
    · simp [members_append, members_opt, members_lits]
    · simpa [members_append, members_opt, members_lits, nil] using
        optMember_opt (means := fun j s => j = .str s) (fun _ => rfl) p.detail
    · simpa [members_append, members_opt, members_lits, nil] using
        optMember_opt (f := fun u => Json.str (UrlText.text u))
          (means := fun j u => ∃ s, j = .str s ∧ UrlText.parse s = some u)
          (fun u => ⟨_, rfl, UrlText.parse_text u⟩) p.inst
    · simpa [members_append, members_opt, members_lits, nil] using
        optMember_opt (means := fun j (h : List Str) => j = .arr (h.map .str)) (fun _ => rfl)
          p.history
    · intro m hm
      simp only [List.mem_append, List.mem_cons, List.not_mem_nil, or_false] at hm
      rcases hm with (((rfl | rfl | rfl) | h) | h) | h
      · simp
      · simp
      · simp
      all_goals
        first
          | (revert h; cases p.detail <;> simp [Problem.optMember]; done)
          | (revert h; cases p.inst <;> simp [Problem.optMember]; done)
          | (revert h; cases p.history <;> simp [Problem.optMember]; done)
          | (cases hd : p.detail <;> rw [hd] at h <;> simp [Problem.optMember] at h
             subst h; simp)
          | (cases hd : p.inst <;> rw [hd] at h <;> simp [Problem.optMember] at h
             subst h; simp)
          | (cases hd : p.history <;> rw [hd] at h <;> simp [Problem.optMember] at h
             subst h; simp)


/-- **C34.** Every problem is read back from the object it is rendered to. -/
theorem C34_document_round_trip (p : Problem) : Problem.ofJson p.toJson = some p := by
  obtain ⟨ms, h1, h2, -⟩ := C34_rendered p
  rw [h1]
  exact (C34_document_iff ms p).2 h2

/-- **C34.** The order of the members does not matter. -/
theorem C34_any_order (ms ms' : List (Str × Json)) (h : ms.Perm ms') :
    Problem.ofJson (.obj ms) = Problem.ofJson (.obj ms') := by
  have hm (key : Str) : (members ms key).Perm (members ms' key) := (h.filter _).map _
  have hd (p : Problem) (h : ∀ key, (members ms key).Perm (members ms' key)) :
      Describes ms p → Describes ms' p := by
    have h1 {key : Str} {j : Json} (he : members ms key = [j]) : members ms' key = [j] := by
      have := h key
      rw [he] at this
      exact List.singleton_perm.1 this |>.symm
    have h0 {key : Str} (he : members ms key = []) : members ms' key = [] := by
      have := h key
      rw [he] at this
      exact List.nil_perm.1 this
    have ho {key : Str} {α : Type} {means : Json → α → Prop} {o : Option α}
        (he : OptMember means (members ms key) o) : OptMember means (members ms' key) o := by
      cases o with
      | none => exact he.elim (fun e => .inl (h0 e)) (fun e => .inr (h1 e))
      | some a => obtain ⟨j, e, hj⟩ := he; exact ⟨j, h1 e, hj⟩
    cases p with
    | aboutBlank p => rintro ⟨a, b, c⟩; exact ⟨h1 a, h1 b, h1 c⟩
    | trackable p => rintro ⟨a, b, c, d, e, f⟩; exact ⟨h1 a, h1 b, h1 c, ho d, ho e, ho f⟩
  have hd' (p : Problem) (h : ∀ key, (members ms' key).Perm (members ms key)) :
      Describes ms' p → Describes ms p := by
    have h1 {key : Str} {j : Json} (he : members ms' key = [j]) : members ms key = [j] := by
      have := h key
      rw [he] at this
      exact List.singleton_perm.1 this |>.symm
    have h0 {key : Str} (he : members ms' key = []) : members ms key = [] := by
      have := h key
      rw [he] at this
      exact List.nil_perm.1 this
    have ho {key : Str} {α : Type} {means : Json → α → Prop} {o : Option α}
        (he : OptMember means (members ms' key) o) : OptMember means (members ms key) o := by
      cases o with
      | none => exact he.elim (fun e => .inl (h0 e)) (fun e => .inr (h1 e))
      | some a => obtain ⟨j, e, hj⟩ := he; exact ⟨j, h1 e, hj⟩
    cases p with
    | aboutBlank p => rintro ⟨a, b, c⟩; exact ⟨h1 a, h1 b, h1 c⟩
    | trackable p => rintro ⟨a, b, c, d, e, f⟩; exact ⟨h1 a, h1 b, h1 c, ho d, ho e, ho f⟩
  apply Option.ext
  intro p
  rw [C34_document_iff, C34_document_iff]
  exact ⟨hd p hm, hd' p fun k => (hm k).symm⟩

/-- **C34.** Members with other names are ignored, whatever their value. -/
theorem C34_unknown_ignored (a b : List (Str × Json)) (key : Str) (j : Json)
    (hk : key ∉ ["type", "title", "status", "detail", "instance", "history"].map String.toList) :
    Problem.ofJson (.obj (a ++ (key, j) :: b)) = Problem.ofJson (.obj (a ++ b)) := by
  have hm (k : Str) (h : k ≠ key) : members (a ++ (key, j) :: b) k = members (a ++ b) k := by
    rw [members_append, members_append, Problem.members_cons_ne h.symm]
  simp only [List.map_cons, List.map_nil, List.mem_cons, List.not_mem_nil, or_false, not_or] at hk
  obtain ⟨k1, k2, k3, k4, k5, k6⟩ := hk
  apply Option.ext
  intro p
  rw [C34_document_iff, C34_document_iff]
  cases p <;> simp only [Describes, hm _ (Ne.symm k1), hm _ (Ne.symm k2), hm _ (Ne.symm k3),
    hm _ (Ne.symm k4), hm _ (Ne.symm k5), hm _ (Ne.symm k6)]

omit [UrlText] in
theorem plainMembers_append (a b : List (Str × Json)) :
    Json.plainMembers (a ++ b) = (Json.plainMembers a && Json.plainMembers b) := by
  induction a with
  | nil => simp [Json.plainMembers]
  | cons m a ih =>
    obtain ⟨k, j⟩ := m
    simp [Json.plainMembers, ih, Bool.and_assoc]

omit [UrlText] in
theorem plainMembers_opt {α : Type} (k : Str) (f : α → Json) (h : ∀ a, (f a).plain = true)
    (o : Option α) : Json.plainMembers (Problem.optMember k f o) = true := by
  cases o <;> simp [Problem.optMember, Json.plainMembers, h]

omit [UrlText] in
theorem plainAll_strs (h : List Str) : Json.plainAll (h.map .str) = true := by
  induction h with
  | nil => rfl
  | cons s h ih => simp [Json.plainAll, Json.plain, ih]

theorem toJson_plain (p : Problem) : p.toJson.plain = true := by
  have hn (n : UInt16) : -9223372036854775808 ≤ (n.toNat : Int) ∧
      (n.toNat : Int) < 18446744073709551616 := by
    have : n.toNat < 65536 := n.toNat_lt
    omega
  cases p with
  | aboutBlank p => simp [Problem.toJson, Json.plain, Json.plainMembers, hn]
  | trackable p =>
    simp [Problem.toJson, Json.plain, Json.plainMembers, plainMembers_append,
      hn]
    exact ⟨plainMembers_opt _ _ (fun _ => by simp [Json.plain]) _,
      plainMembers_opt _ _ (fun _ => by simp [Json.plain]) _,
      plainMembers_opt _ _ (fun h => by simp [Json.plain, plainAll_strs]) _⟩

omit [UrlText] in
theorem depthMembers_append (a b : List (Str × Json)) :
    Json.depthMembers (a ++ b) = max (Json.depthMembers a) (Json.depthMembers b) := by
  induction a with
  | nil => simp [Json.depthMembers]
  | cons m a ih =>
    obtain ⟨k, j⟩ := m
    simp [Json.depthMembers, ih, Nat.max_assoc]

omit [UrlText] in
theorem depthMembers_opt {α : Type} (k : Str) (f : α → Json) (h : ∀ a, (f a).depth ≤ 1)
    (o : Option α) : Json.depthMembers (Problem.optMember k f o) ≤ 1 := by
  cases o <;> simp [Problem.optMember, Json.depthMembers, h]

omit [UrlText] in
theorem depthAll_strs (h : List Str) : Json.depthAll (h.map .str) = 0 := by
  induction h with
  | nil => rfl
  | cons s h ih => simp [Json.depthAll, Json.depth, ih]

/-- Problem documents are flat but for the history of a trackable one. -/
theorem toJson_depth (p : Problem) : p.toJson.depth ≤ 127 := by
  have h2 : p.toJson.depth ≤ 2 := by
    cases p with
    | aboutBlank p => simp [Problem.toJson, Json.depth, Json.depthMembers]
    | trackable p =>
      simp only [Problem.toJson, Json.depth, depthMembers_append, Json.depthMembers]
      simp only [Nat.max_le, Nat.zero_le, true_and,
        and_true, show ∀ n, n + 1 ≤ 2 ↔ n ≤ 1 by omega]
      refine ⟨⟨?_, ?_⟩, ?_⟩ <;> refine depthMembers_opt _ _ (fun _ => ?_) _ <;>
        simp [Json.depth, depthAll_strs]
  omega

variable [JsonText]

theorem parse_toJson (p : Problem) : JsonText.parse (JsonText.render p.toJson) = some p.toJson :=
  JsonText.parse_render _ (toJson_plain _) (toJson_depth _)

/-- **C34.** Every problem survives the body of a response, whatever problem the receiver had
before. -/
theorem C34_body_round_trip (r r' : ProblemResponse) :
    (r'.setBody r.bodyBytes).body = r.body := by
  rw [ProblemResponse.setBody, ProblemResponse.bodyBytes, parse_toJson]
  simp [C34_document_round_trip]

/-! ### C36: malformed bodies -/

/-- **C36.** A body which is no problem document changes nothing. -/
theorem C36_malformed_ignored (r : ProblemResponse) (b : Bytes) (h : ∀ p, ¬ IsDocument b p) :
    r.setBody b = r := by
  rw [ProblemResponse.setBody]
  split
  · rename_i p hp
    obtain ⟨j, h1, h2⟩ := Option.bind_eq_some_iff.1 hp
    exact absurd ⟨j, h1, (C34_any_document_iff j p).1 h2⟩ (h p)
  · rfl

/-- **C36.** A body which is a problem document replaces the problem entirely and leaves the status
as it is. -/
theorem C36_document_replaces (r : ProblemResponse) (b : Bytes) (p : Problem)
    (h : IsDocument b p) : r.setBody b = ⟨r.status, p⟩ := by
  obtain ⟨j, h1, h2⟩ := h
  rw [ProblemResponse.setBody, h1]
  simp [(C34_any_document_iff j p).2 h2]

/-! ### C35: status line and document -/

variable [FloatText]

omit [FloatText] in
theorem Spec.Made.eq {p q : Problem} {r : ProblemResponse} (h : Made p q r) :
    r = ⟨some p.statusCode, q⟩ := by
  induction h with
  | new => rfl
  | setProblem q' _ ih => rw [ih]; rfl
  | setBody b q' _ hd ih => rw [C36_document_replaces _ _ _ hd, ih]
  | badBody b _ hd ih => rw [C36_malformed_ignored _ _ hd, ih]

omit [UrlText] [JsonText] in
theorem problemHeaders : serHeaders [] ProblemResponse.headerVal =
    .ok [(utf8 "content-type".toList, utf8 "application/problem+json".toList)] := rfl

omit [JsonText] in
theorem serResponse_problem {r : ProblemResponse} {c : UInt16} {s : Status} (body : Bytes)
    (hc : r.status = some c) (hs : s.code = c.toNat) :
    serResponse r.toVal body = .ok ⟨s,
      [(utf8 "content-type".toList, utf8 "application/problem+json".toList), contentLength body],
      body⟩ := by
  rw [serResponse, ProblemResponse.toVal, hc, RespSer.ser, RespSer.serFields, RespSer.serField,
    if_pos rfl]
  have hj : RespSer.jsonU16 (.some (.int .u16 c.toNat)) = some c.toNat := by
    have : c.toNat < 65536 := c.toNat_lt
    rw [RespSer.jsonU16, RespSer.jsonU16, if_pos (by omega)]
    rfl
  simp only
  rw [hj]
  simp only [Res.ofOption, Res.bind_ok, RespSer.new, Res.check_true, (statusOfCode_iff _ _).2 hs]
  rfl

/-- **C35.** A problem response is sent with the status of the problem it was made from, and with a
document that has the status of its present problem. -/
theorem C35_status_line (p q : Problem) (r : ProblemResponse) (h : Made p q r) (n : Str)
    (hn : (n, p.statusCode.toNat) ∈ statusTable) :
    ∃ m ms, serResponse r.toVal r.bodyBytes = .ok m ∧ m.status.code = p.statusCode.toNat ∧
      JsonText.parse m.body = some (.obj ms) ∧
      members ms "status".toList = [.num q.statusCode.toNat] := by
  have := h.eq
  subst this
  obtain ⟨s, hs, -⟩ := status_of_table hn
  obtain ⟨ms, h1, h2, -⟩ := C34_rendered q
  refine ⟨_, ms, serResponse_problem _ rfl hs, hs, ?_, ?_⟩
  · show JsonText.parse (JsonText.render q.toJson) = _
    rw [parse_toJson _, h1]
  · cases q with
    | aboutBlank q => exact h2.2.2
    | trackable q => exact h2.2.2.1

/-- **C35.** So status line and document agree for responses as made by `into_response`, -/
theorem C35_agree (p : Problem) (n : Str) (hn : (n, p.statusCode.toNat) ∈ statusTable) :
    ∃ m ms, serResponse (ProblemResponse.ofProblem p).toVal
        (ProblemResponse.ofProblem p).bodyBytes = .ok m ∧
      JsonText.parse m.body = some (.obj ms) ∧
      members ms "status".toList = [.num m.status.code] := by
  obtain ⟨m, ms, h1, h2, h3, h4⟩ := C35_status_line p p _ .new n hn
  exact ⟨m, ms, h1, h3, by rw [h2]; exact h4⟩

/-- and they disagree after every `set_problem` with another status. -/
theorem C35_disagree (p q : Problem) (n : Str) (hn : (n, p.statusCode.toNat) ∈ statusTable)
    (h : q.statusCode ≠ p.statusCode) :
    ∃ m ms, serResponse ((ProblemResponse.ofProblem p).setProblem q).toVal
        ((ProblemResponse.ofProblem p).setProblem q).bodyBytes = .ok m ∧
      JsonText.parse m.body = some (.obj ms) ∧
      members ms "status".toList ≠ [.num m.status.code] := by
  obtain ⟨m, ms, h1, h2, h3, h4⟩ := C35_status_line p q _ (.setProblem q .new) n hn
  refine ⟨m, ms, h1, h3, ?_⟩
  rw [h4, h2]
  intro he
  apply h
  simp only [List.cons.injEq, Json.num.injEq, and_true, Int.natCast_inj] at he
  exact UInt16.toNat_inj.1 he

omit [JsonText] in
/-- A problem whose status is unknown cannot be sent. -/
theorem C35_unknown_status (p : Problem) (hn : ∀ n, (n, p.statusCode.toNat) ∉ statusTable)
    (body : Bytes) : serResponse (ProblemResponse.ofProblem p).toVal body = .err .invalid := by
  have h := (C31_cases body).2.2.2 (.some (.int .u16 p.statusCode.toNat)) p.statusCode.toNat
    [("header".toList, ProblemResponse.headerVal)] (.some (.int _ _))
    (fun n hh => hn n hh)
  exact h

end

/-! ### C32, C33: receiving problem responses -/

section
variable [UrlText] [JsonText] [FloatText]

/-- The value received for a problem response: the status is missing. -/
def receivedProblem : Val :=
  .struct [("status".toList, .none), ("header".toList, ProblemResponse.headerVal)]

omit [JsonText] [FloatText] in
theorem received_is_response (q : Problem) :
    ProblemResponse.toVal ⟨none, q⟩ = receivedProblem := rfl

omit [UrlText] [JsonText] in
/-- **C33.** No message at all is decoded as a `ProblemResponse`. -/
theorem C33_never_received (code : Nat) (hs : List Header) :
    deResponse ProblemResponse.ty code hs = .err .invalid := by
  rw [deResponse, ProblemResponse.ty, RespDe.de, respDe_struct]
  rfl

omit [JsonText] in
/-- A problem response that was received cannot be sent again. -/
theorem C33_received_not_sendable (m : Str) (q : Problem) (body : Bytes) :
    serResponse (.newtypeVariant m (ProblemResponse.toVal ⟨none, q⟩)) body = .err .invalid := by
  refine C31_rejected _ _ fun c h => ?_
  cases h with
  | newtypeVariant h =>
    rw [received_is_response, receivedProblem] at h
    cases h with
    | struct h => cases h

end

section
variable [UrlText] [JsonText] [LawfulFloatText]

/-- **C32.** A problem response inside of a variant is sent with the status of the problem whatever
the name of the variant is; a client that declares a newtype variant with a problem response for
this status receives this variant, with the status missing, also if the transport adds headers
other than a content type; and the body gives it the problem. -/
theorem C32_problem_received (p : Problem) (n m : Str) (vs : List (Str × VTy))
    (hn : (n, p.statusCode.toNat) ∈ statusTable)
    (hv : vs.lookup n = some (.newtype ProblemResponse.ty)) :
    ∃ r, serResponse (.newtypeVariant m (ProblemResponse.ofProblem p).toVal)
        (ProblemResponse.ofProblem p).bodyBytes = .ok r ∧
      r.status.code = p.statusCode.toNat ∧
      (∀ pre post, AsciiNames pre → AsciiNames post →
        (∀ h ∈ pre ++ post, nameText h.1 ≠ "content-type".toList) →
        deResponse (.enum vs) r.status.code (pre ++ r.headers ++ post) =
          .ok (.newtypeVariant n (ProblemResponse.toVal ⟨none, p⟩))) ∧
      ∀ q, (ProblemResponse.setBody ⟨none, q⟩ r.body) = ⟨none, p⟩ := by
  obtain ⟨s, hs, -⟩ := status_of_table hn
  refine ⟨⟨s, [(utf8 "content-type".toList, utf8 "application/problem+json".toList),
    contentLength (ProblemResponse.ofProblem p).bodyBytes],
    (ProblemResponse.ofProblem p).bodyBytes⟩, ?_, hs, ?_, ?_⟩
  · rw [serResponse, RespSer.ser]
    exact serResponse_problem _ rfl hs
  · intro pre post h1 h2 h3
    have hp : HeaderPart (some ProblemResponse.headerVal) (some ProblemResponse.headerTy) := by
      refine .struct (es := [("content-type".toList, utf8 "application/problem+json".toList)])
        ?_ ?_ ?_ ?_ ?_
      · exact .present (.unitStruct _) .nil
      · exact .cons (.unitStruct _) .nil
      · simp [DistinctNames]
      · decide
      · decide
    obtain ⟨own, ho, hr⟩ := hp.sound (ProblemResponse.ofProblem p).bodyBytes
    rw [requestHeaders, problemHeaders] at ho
    cases ho
    have hr := hr pre post h1 h2
      (by
        intro ts ht h hh
        cases ht
        have := h3 h (List.mem_append.2 (.inl hh))
        simpa [Declared] using this)
      (by
        intro ts ht h hh
        cases ht
        have := h3 h (List.mem_append.2 (.inr hh))
        simpa [Declared] using this)
    rcases hr with ⟨h, -⟩ | ⟨ty, v, e1, e2, hr⟩
    · cases h
    · cases e1; cases e2
      rw [deResponse, RespDe.de]
      simp only [hs, (statusCodeToStr_table _ _).2 hn, Res.ofOption, Res.bind_ok]
      rw [deVariant_lookup _ _ _ _ hv, RespDe.deContent, ProblemResponse.ty, RespDe.de,
        respDe_variant]
      have l1 : List.lookup "header".toList [("status".toList, Ty.option (.int .u16)),
        ("header".toList, ProblemResponse.headerTy)] = some ProblemResponse.headerTy := rfl
      rw [readPart_opt l1 (v := some ProblemResponse.headerVal) (.inr ⟨_, _, rfl, rfl, hr⟩)]
      rfl
  · intro q
    show ProblemResponse.setBody ⟨none, q⟩ (ProblemResponse.ofProblem p).bodyBytes = _
    rw [C36_document_replaces _ _ p]
    exact ⟨_, parse_toJson _,
      (C34_any_document_iff _ _).1 (C34_document_round_trip p)⟩

end

/-! ### Examples -/

section Examples
open ToyJson

/-- A problem with a detail and a history but no instance. -/
def exProblem [UrlText] : Problem := .trackable
  { title := "x".toList, status := 404, detail := some "y".toList, inst := none,
    history := some ["a".toList, "b".toList] }

/-- `C34`: members in another order, a null and an unknown member. -/
example : letI := toyUrl
    Problem.ofJson (.obj [("history".toList, .arr [.str "a".toList, .str "b".toList]),
      ("extra".toList, .bool true), ("status".toList, .num 404), ("instance".toList, .null),
      ("title".toList, .str "x".toList), ("type".toList, .str Problem.trackableTag),
      ("detail".toList, .str "y".toList)]) = some exProblem :=
  letI := toyUrl
  (C34_document_iff _ _).2 ⟨rfl, rfl, rfl, ⟨_, rfl, rfl⟩, .inr rfl, ⟨_, rfl, rfl⟩⟩

/-- `C34`: a repeated member is no document. -/
example : letI := toyUrl
    Problem.ofJson (.obj [("type".toList, .str Problem.aboutBlankTag),
      ("title".toList, .str []), ("status".toList, .num 404), ("title".toList, .str [])]) =
      none := rfl

/-- `C34_unknown_ignored` and `C34_any_order` apply. -/
example : letI := toyUrl
    Problem.ofJson (.obj [("status".toList, .num 404), ("a".toList, .null),
        ("title".toList, .str []), ("type".toList, .str Problem.aboutBlankTag)]) =
      some (.aboutBlank ⟨[], 404⟩) := by
  let := toyUrl
  rw [show [("status".toList, Json.num 404), ("a".toList, .null), ("title".toList, .str []),
    ("type".toList, .str Problem.aboutBlankTag)] = [("status".toList, .num 404)] ++
      ("a".toList, .null) :: [("title".toList, .str []),
    ("type".toList, .str Problem.aboutBlankTag)] from rfl, C34_unknown_ignored _ _ _ _ (by decide),
    C34_any_order _ [("type".toList, .str Problem.aboutBlankTag), ("title".toList, .str []),
      ("status".toList, .num 404)] (List.reverse_perm _).symm]
  rfl

/-- `C35`: a response whose problem was replaced by one with another status. -/
example : letI := toyUrl; letI := toyJson; letI := toyFloat
    ∃ m ms, serResponse ((ProblemResponse.ofProblem exProblem).setProblem
          (.aboutBlank ⟨[], 500⟩)).toVal
        ((ProblemResponse.ofProblem exProblem).setProblem (.aboutBlank ⟨[], 500⟩)).bodyBytes =
          .ok m ∧
      JsonText.parse m.body = some (.obj ms) ∧
      members ms "status".toList ≠ [.num m.status.code] := by
  let := toyUrl; let := toyJson; let := toyFloat
  exact C35_disagree exProblem (.aboutBlank ⟨[], 500⟩) "NotFound".toList (by decide) (by decide)

/-- `C35`: an unknown status. -/
example (body : Bytes) : letI := toyUrl; letI := toyFloat
    serResponse (ProblemResponse.ofProblem (.aboutBlank ⟨[], 999⟩)).toVal body =
      .err .invalid := by
  let := toyUrl; let := toyFloat
  refine C35_unknown_status _ ?_ _
  intro n hn
  rw [← statusCodeToStr_table] at hn
  cases hn

/-- `C36`: a document and a malformed body. -/
example (r : letI := toyUrl; ProblemResponse) : letI := toyUrl; letI := toyJson
    r.setBody (enc (.str [])) = r ∧ r.setBody (enc exProblem.toJson) = ⟨r.status, exProblem⟩ := by
  let := toyUrl; let := toyJson
  refine ⟨C36_malformed_ignored _ _ ?_, C36_document_replaces _ _ _ ?_⟩
  · rintro p ⟨j, h1, h2⟩
    have h3 : JsonText.parse (enc (.str [])) = some (.str []) :=
      JsonText.parse_render (.str []) (by simp [Json.plain]) (by simp [Json.depth])
    rw [h3] at h1
    cases h1
    cases h2
  · exact ⟨_, parse_toJson _,
      (C34_any_document_iff _ _).1 (C34_document_round_trip _)⟩

/-- `C32`: a problem with status 404 inside of a variant with a misleading name. -/
example : letI := toyUrl; letI := toyJson; letI := toyFloat
    ∃ r, serResponse (.newtypeVariant "Ok".toList (ProblemResponse.ofProblem exProblem).toVal)
        (ProblemResponse.ofProblem exProblem).bodyBytes = .ok r ∧
      deResponse (.enum [("Ok".toList, .unit), ("NotFound".toList, .newtype ProblemResponse.ty)])
        r.status.code r.headers =
        .ok (.newtypeVariant "NotFound".toList (ProblemResponse.toVal ⟨none, exProblem⟩)) := by
  let := toyUrl; let := toyJson; let := toyFloat
  obtain ⟨r, h1, -, h2, -⟩ := C32_problem_received exProblem "NotFound".toList "Ok".toList
    [("Ok".toList, .unit), ("NotFound".toList, .newtype ProblemResponse.ty)] (by decide) rfl
  refine ⟨r, h1, ?_⟩
  have := h2 [] [] (by simp [AsciiNames]) (by simp [AsciiNames]) (by simp)
  simpa using this

end Examples
end Htrpc
