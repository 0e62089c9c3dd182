/-
Texts that are read from paths.
-/
import Verif.Spec.Verdict

namespace Htrpc
open Spec

theorem mem_variables {e : EntryPoint} {segs : List Str} {s : Str} (h : s ∈ variables e segs) :
    s ∈ segs := by
  induction e generalizing segs with
  | nil => simp [variables] at h
  | cons x e ih =>
    cases segs with
    | nil => cases x <;> simp [variables] at h
    | cons y segs =>
      cases x with
      | val c => exact List.mem_cons_of_mem _ (ih h)
      | var =>
        rw [variables] at h
        rcases List.mem_cons.1 h with rfl | h
        · exact List.mem_cons_self
        · exact List.mem_cons_of_mem _ (ih h)

section
variable [FloatText]

theorem readArg_text : ∀ (t : Ty) {s x : Str} {v : Val}, readArg t s = some v → HasText x v → x = s
  | .newtypeStruct t, s, x, v, h, hx => by
    rw [readArg] at h
    cases hr : readArg t s with
    | none => rw [hr] at h; cases h
    | some w =>
      rw [hr] at h
      cases h
      cases hx with
      | newtype hx => exact readArg_text t hr hx
  | .str, s, x, v, h, hx => by
    rw [readArg] at h
    cases h
    cases hx
    rfl
  | .bool, s, x, v, h, hx => by
    rw [readArg] at h
    cases hr : parseBool s <;> rw [hr] at h <;> cases h <;> cases hx
  | .int t, s, x, v, h, hx => by
    rw [readArg] at h
    cases hr : parseInt t s <;> rw [hr] at h <;> cases h <;> cases hx
  | .f32, s, x, v, h, hx => by
    rw [readArg] at h
    cases hr : FloatText.parse32 s <;> rw [hr] at h <;> cases h <;> cases hx
  | .f64, s, x, v, h, hx => by
    rw [readArg] at h
    cases hr : FloatText.parse64 s <;> rw [hr] at h <;> cases h <;> cases hx
  | .char, s, x, v, h, hx => by simp [readArg] at h
  | .bytes, s, x, v, h, hx => by simp [readArg] at h
  | .option _, s, x, v, h, hx => by simp [readArg] at h
  | .unit, s, x, v, h, hx => by simp [readArg] at h
  | .unitStruct _, s, x, v, h, hx => by simp [readArg] at h
  | .seq _, s, x, v, h, hx => by simp [readArg] at h
  | .tuple _, s, x, v, h, hx => by simp [readArg] at h
  | .tupleStruct _, s, x, v, h, hx => by simp [readArg] at h
  | .map _ _, s, x, v, h, hx => by simp [readArg] at h
  | .struct _, s, x, v, h, hx => by simp [readArg] at h
  | .enum _, s, x, v, h, hx => by simp [readArg] at h

theorem readSegment_text {t : Ty} {s x : Str} {v : Val} (h : readSegment t s = some v)
    (hx : HasText x v) : unescape s = some x := by
  rw [readSegment] at h
  cases hu : unescape s with
  | none => rw [hu] at h; cases h
  | some y => rw [hu] at h; rw [readArg_text t h hx]

theorem readSegments_text {ts : List Ty} {segs : List Str} {vs : List Val} {v : Val} {x : Str}
    (h : readSegments ts segs = some vs) (hv : v ∈ vs) (hx : HasText x v) :
    ∃ s ∈ segs, unescape s = some x := by
  induction ts generalizing segs vs with
  | nil => cases segs <;> simp [readSegments] at h; subst h; cases hv
  | cons t ts ih =>
    cases segs with
    | nil => simp [readSegments] at h
    | cons s segs =>
      rw [readSegments] at h
      split at h
      · rename_i w ws h1 h2
        cases h
        rcases List.mem_cons.1 hv with rfl | hv
        · exact ⟨s, List.mem_cons_self, readSegment_text h1 hx⟩
        · obtain ⟨s', hs', hu⟩ := ih h2 hv
          exact ⟨s', List.mem_cons_of_mem _ hs', hu⟩
      · cases h

theorem readEach_text {t : Ty} {segs : List Str} {vs : List Val} {v : Val} {x : Str}
    (h : readEach t segs = some vs) (hv : v ∈ vs) (hx : HasText x v) :
    ∃ s ∈ segs, unescape s = some x := by
  induction segs generalizing vs with
  | nil => simp [readEach] at h; subst h; cases hv
  | cons s segs ih =>
    rw [readEach] at h
    split at h
    · rename_i w ws h1 h2
      cases h
      rcases List.mem_cons.1 hv with rfl | hv
      · exact ⟨s, List.mem_cons_self, readSegment_text h1 hx⟩
      · obtain ⟨s', hs', hu⟩ := ih h2 hv
        exact ⟨s', List.mem_cons_of_mem _ hs', hu⟩
    · cases h

theorem readHead_text {t : Ty} {segs : List Str} {v : Val} {x : Str}
    (h : segs.head?.bind (readSegment t) = some v) (hx : HasText x v) :
    ∃ s ∈ segs, unescape s = some x := by
  cases segs with
  | nil => cases h
  | cons s segs => exact ⟨s, List.mem_cons_self, readSegment_text h hx⟩

/-- Every text in the value of a path is the text of one of its segments. -/
theorem readPath_text : ∀ (t : Ty) {segs : List Str} {x : Str} {v : Val},
    readPath t segs = some v → HasText x v → ∃ s ∈ segs, unescape s = some x
  | .tuple ts, segs, x, v, h, hx => by
    rw [readPath] at h
    cases hr : readSegments ts (segs.take ts.length) with
    | none => rw [hr] at h; cases h
    | some vs =>
      rw [hr] at h
      cases h
      cases hx with
      | tuple hv hx =>
        obtain ⟨s, hs, hu⟩ := readSegments_text hr hv hx
        exact ⟨s, List.mem_of_mem_take hs, hu⟩
  | .tupleStruct ts, segs, x, v, h, hx => by
    rw [readPath] at h
    cases hr : readSegments ts (segs.take ts.length) with
    | none => rw [hr] at h; cases h
    | some vs =>
      rw [hr] at h
      cases h
      cases hx with
      | tupleStruct hv hx =>
        obtain ⟨s, hs, hu⟩ := readSegments_text hr hv hx
        exact ⟨s, List.mem_of_mem_take hs, hu⟩
  | .seq t, segs, x, v, h, hx => by
    rw [readPath] at h
    cases hr : readEach t segs with
    | none => rw [hr] at h; cases h
    | some vs =>
      rw [hr] at h
      cases h
      cases hx with
      | seq hv hx => exact readEach_text hr hv hx
  | .newtypeStruct t, segs, x, v, h, hx => by
    rw [readPath] at h
    cases hr : readPath t segs with
    | none => rw [hr] at h; cases h
    | some w =>
      rw [hr] at h
      cases h
      cases hx with
      | newtype hx => exact readPath_text t hr hx
  | .bool, _, _, _, h, hx => readHead_text (t := .bool) h hx
  | .int t, _, _, _, h, hx => readHead_text (t := .int t) h hx
  | .f32, _, _, _, h, hx => readHead_text (t := .f32) h hx
  | .f64, _, _, _, h, hx => readHead_text (t := .f64) h hx
  | .char, _, _, _, h, hx => readHead_text (t := .char) h hx
  | .str, _, _, _, h, hx => readHead_text (t := .str) h hx
  | .bytes, _, _, _, h, hx => readHead_text (t := .bytes) h hx
  | .option t, _, _, _, h, hx => readHead_text (t := .option t) h hx
  | .unit, _, _, _, h, hx => readHead_text (t := .unit) h hx
  | .unitStruct n, _, _, _, h, hx => readHead_text (t := .unitStruct n) h hx
  | .map k t, _, _, _, h, hx => readHead_text (t := .map k t) h hx
  | .struct fs, _, _, _, h, hx => readHead_text (t := .struct fs) h hx
  | .enum vs, _, _, _, h, hx => readHead_text (t := .enum vs) h hx

omit [FloatText] in
theorem fields_value {P : Str → Ty → Val → Prop} {fs : List (Str × Ty)} {vs : List (Str × Val)}
    (h : Fields P fs vs) {n : Str} {v : Val} (hv : (n, v) ∈ vs) : ∃ t, P n t v := by
  induction h with
  | nil => cases hv
  | cons hp _ ih =>
    rcases List.mem_cons.1 hv with h | h
    · cases h
      exact ⟨_, hp⟩
    · exact ih h

/-- The texts in what a handler gets from the path are texts of segments. -/
theorem fromPath_text {e : EntryPoint} {segs : List Str} {ps : List (Str × Str)} {hs : List Header}
    {t : Ty} {r v : Val} {x : Str} (h : ReadsRequest e segs ps hs t r) (hp : FromPath r v)
    (hx : HasText x v) : ∃ s ∈ segs, unescape s = some x := by
  induction h generalizing v with
  | struct _ hf =>
    cases hp with
    | struct hv =>
      obtain ⟨t, ht⟩ := fields_value hf hv
      generalize hn : "path".toList = n at ht
      cases ht with
      | path hr =>
        obtain ⟨s, hs, hu⟩ := readPath_text _ hr hx
        exact ⟨s, mem_variables hs, hu⟩
      | query => exact absurd hn (by decide)
      | header => exact absurd hn (by decide)
      | other h1 => exact absurd hn.symm h1
  | map => cases hp
  | newtype _ ih =>
    cases hp with
    | newtype hp => exact ih hp hx

end

end Htrpc
