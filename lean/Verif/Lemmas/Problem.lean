import Verif.Spec.Problem

namespace Htrpc
open Spec

namespace Problem
variable [UrlText]

/-- A field after the members `js` with its name. -/
def after {α : Type} (read : Json → Option α) (old : Option α) : List Json → Option (Option α)
  | [] => some old
  | j :: js => (once old read j).bind fun o => after read o js

omit [UrlText] in
theorem after_some {α : Type} {read : Json → Option α} {a : α} {js : List Json} {o : Option α} :
    after read (some a) js = some o ↔ js = [] ∧ o = some a := by
  cases js with
  | nil => simp [after, eq_comm]
  | cons j js => simp [after, once]

omit [UrlText] in
theorem after_none_none {α : Type} {read : Json → Option α} {js : List Json} :
    after read none js = some none ↔ js = [] := by
  cases js with
  | nil => simp [after]
  | cons j js =>
    simp only [after, once, Option.bind_eq_some_iff, Option.map_eq_some_iff, List.cons_ne_nil,
      iff_false]
    rintro ⟨o, ⟨a, -, rfl⟩, h⟩
    exact absurd (after_some.1 h).2 (by simp)

omit [UrlText] in
theorem after_none_some {α : Type} {read : Json → Option α} {js : List Json} {a : α} :
    after read none js = some (some a) ↔ ∃ j, js = [j] ∧ read j = some a := by
  cases js with
  | nil => simp [after]
  | cons j js =>
    simp only [after, once, Option.bind_eq_some_iff, Option.map_eq_some_iff]
    constructor
    · rintro ⟨o, ⟨b, hb, rfl⟩, h⟩
      obtain ⟨rfl, h⟩ := after_some.1 h
      cases h
      exact ⟨j, rfl, hb⟩
    · rintro ⟨j', h, hr⟩
      cases h
      exact ⟨_, ⟨a, hr, rfl⟩, after_some.2 ⟨rfl, rfl⟩⟩

omit [UrlText] in
theorem members_cons_eq (k : Str) (j : Json) (ms : List (Str × Json)) :
    members ((k, j) :: ms) k = j :: members ms k := by
  simp [members]

omit [UrlText] in
theorem members_cons_ne {k key : Str} (h : k ≠ key) (j : Json) (ms : List (Str × Json)) :
    members ((k, j) :: ms) key = members ms key := by
  simp [members, h]

omit [UrlText] in
theorem members_filter (ms : List (Str × Json)) {key k : Str} (h : key ≠ k) :
    members (ms.filter fun m => decide (m.1 ≠ k)) key = members ms key := by
  unfold members
  rw [List.filter_filter]
  congr 1
  apply List.filter_congr
  intro m _
  by_cases hm : m.1 = key
  · subst hm; simp [h]
  · simp [hm]

theorem visit_aboutBlank (ms : List (Str × Json)) (f f' : Fields) :
    visitMembers stepAboutBlank ms f = some f' ↔
      after readStr f.title (members ms "title".toList) = some f'.title ∧
      after readU16 f.status (members ms "status".toList) = some f'.status ∧
      f'.detail = f.detail ∧ f'.inst = f.inst ∧ f'.history = f.history := by
  induction ms generalizing f with
  | nil =>
    obtain ⟨a, b, c, d, e⟩ := f
    obtain ⟨a', b', c', d', e'⟩ := f'
    simp [visitMembers, members, after]
    grind
  | cons m ms ih =>
    obtain ⟨k, j⟩ := m
    rw [visitMembers, stepAboutBlank]
    by_cases h1 : k = "title".toList
    · subst h1
      rw [if_pos rfl, members_cons_eq, members_cons_ne (by decide), after]
      cases once f.title readStr j <;> simp [ih]
    rw [if_neg h1]
    by_cases h2 : k = "status".toList
    · subst h2
      rw [if_pos rfl, members_cons_eq, members_cons_ne (by decide), after]
      cases once f.status readU16 j <;> simp [ih]
    rw [if_neg h2, members_cons_ne h1, members_cons_ne h2]
    simp [ih]

theorem visit_trackable (ms : List (Str × Json)) (f f' : Fields) :
    visitMembers stepTrackable ms f = some f' ↔
      after readStr f.title (members ms "title".toList) = some f'.title ∧
      after readU16 f.status (members ms "status".toList) = some f'.status ∧
      after (readOpt readStr) f.detail (members ms "detail".toList) = some f'.detail ∧
      after (readOpt readUrl) f.inst (members ms "instance".toList) = some f'.inst ∧
      after (readOpt readStrs) f.history (members ms "history".toList) = some f'.history := by
  induction ms generalizing f with
  | nil =>
    obtain ⟨a, b, c, d, e⟩ := f
    obtain ⟨a', b', c', d', e'⟩ := f'
    simp [visitMembers, members, after]
  | cons m ms ih =>
    obtain ⟨k, j⟩ := m
    rw [visitMembers, stepTrackable]
    by_cases h1 : k = "title".toList
    · subst h1
      rw [if_pos rfl, members_cons_eq, members_cons_ne (by decide), members_cons_ne (by decide),
        members_cons_ne (by decide), members_cons_ne (by decide), after]
      cases once f.title readStr j <;> simp [ih]
    rw [if_neg h1]
    by_cases h2 : k = "status".toList
    · subst h2
      rw [if_pos rfl, members_cons_eq, members_cons_ne (by decide), members_cons_ne (by decide),
        members_cons_ne (by decide), members_cons_ne (by decide)]
      simp only [after]
      cases once f.status readU16 j <;> simp [ih]
    rw [if_neg h2]
    by_cases h3 : k = "detail".toList
    · subst h3
      rw [if_pos rfl, members_cons_eq, members_cons_ne (by decide), members_cons_ne (by decide),
        members_cons_ne (by decide), members_cons_ne (by decide)]
      simp only [after]
      cases once f.detail (readOpt readStr) j <;> simp [ih]
    rw [if_neg h3]
    by_cases h4 : k = "instance".toList
    · subst h4
      rw [if_pos rfl, members_cons_eq, members_cons_ne (by decide), members_cons_ne (by decide),
        members_cons_ne (by decide), members_cons_ne (by decide)]
      simp only [after]
      cases once f.inst (readOpt readUrl) j <;> simp [ih]
    rw [if_neg h4]
    by_cases h5 : k = "history".toList
    · subst h5
      rw [if_pos rfl, members_cons_eq, members_cons_ne (by decide), members_cons_ne (by decide),
        members_cons_ne (by decide), members_cons_ne (by decide)]
      simp only [after]
      cases once f.history (readOpt readStrs) j <;> simp [ih]
    rw [if_neg h5, members_cons_ne h1, members_cons_ne h2, members_cons_ne h3, members_cons_ne h4,
      members_cons_ne h5]
    simp [ih]

omit [UrlText] in
theorem splitTag_iff (ms : List (Str × Json)) (tag : Option Tag) (acc : List (Str × Json))
    (t : Tag) (rest : List (Str × Json)) :
    splitTag ms tag acc = some (t, rest) ↔
      after readTag tag (members ms "type".toList) = some (some t) ∧
      rest = acc ++ ms.filter fun m => decide (m.1 ≠ "type".toList) := by
  induction ms generalizing tag acc with
  | nil =>
    cases tag <;> simp [splitTag, members, after, eq_comm]
  | cons m ms ih =>
    obtain ⟨k, j⟩ := m
    by_cases hk : k = "type".toList
    · subst hk
      rw [members_cons_eq, after, List.filter_cons_of_neg (by simp), splitTag.eq_def]
      simp only [↓reduceIte]
      cases tag with
      | some _ => simp [once]
      | none =>
        simp only [once]
        cases readTag j with
        | none => simp
        | some t' => simp [ih]
    · rw [splitTag.eq_def]
      simp only [hk, ↓reduceIte]
      rw [members_cons_ne hk, ih, List.filter_cons_of_pos (by simpa using hk)]
      simp

end Problem
end Htrpc
