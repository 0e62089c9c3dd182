/-
What is read from headers that HTTP can express can be written as such headers.
-/
import Verif.Props.ExactRequest
import Verif.Props.Http
import Verif.Lemmas.Interop

namespace Htrpc
open Spec Http

theorem token_lower {b : UInt8} (h : NameByte b) : NameByte (lowerByte b) :=
  all_bytes (P := fun b => NameByte b → NameByte (lowerByte b)) (by decide +kernel) b h

/-- A token in lower case is one. -/
theorem safeName_lower {n : Bytes} (h : SafeName n) : SafeName (utf8 (nameText n)) := by
  rw [← lowerName_utf8 fun b hb => by have := isToken_facts (h.2 b hb); omega]
  refine ⟨by have := h.1; simpa [lowerName] using this, fun b hb => ?_⟩
  obtain ⟨c, hc, rfl⟩ := List.mem_map.1 hb
  exact token_lower (h.2 c hc)

/-- Texts of visible characters are values of headers. -/
theorem safeValue_visible {s : Str} (h : ∀ c ∈ s, 0x21 ≤ c.toNat ∧ c.toNat < 0x7F) :
    SafeValue (utf8 s) := by
  have key : ∀ b ∈ utf8 s, 0x21 ≤ b.toNat ∧ b.toNat < 0x7F := by
    rw [utf8_ascii fun c hc => by have := h c hc; omega]
    intro b hb
    obtain ⟨c, hc, rfl⟩ := List.mem_map.1 hb
    have := h c hc
    rw [UInt8.toNat_ofNat', Nat.mod_eq_of_lt (by omega)]
    exact this
  refine ⟨fun b hb => ?_, fun b hb => ?_⟩
  · have := key b hb
    exact .inr (.inl (by omega))
  · have hm : b ∈ utf8 s := by
      rcases hb with hb | hb
      · exact List.mem_of_head? hb
      · exact List.mem_of_getLast? hb
    have := key b hm
    constructor <;> (rintro rfl; revert this; decide)

theorem visible_alnum {c : Char} (h : c.isAlphanum = true) : 0x21 ≤ c.toNat ∧ c.toNat < 0x7F := by
  have := alnum_range h
  omega

section
variable [LawfulFloatText]

theorem sent_safe {v : Val} {s : Str} (h : SentAs v s) {t : Ty} (ht : HasTy v t) {b : Bytes}
    (hr : readBytes t b = some v) (hb : SafeValue b) : SafeValue (utf8 s) := by
  induction h generalizing t with
  | bool x => exact safeValue_visible (by cases x <;> decide)
  | int t i =>
    refine safeValue_visible fun c hc => ?_
    rcases showInt_chars hc with hc | rfl
    · exact visible_alnum hc
    · decide
  | f32 x =>
    refine safeValue_visible fun c hc => ?_
    rcases LawfulFloatText.show64_alnum _ c hc with hc | rfl | rfl
    · exact visible_alnum hc
    · decide
    · decide
  | f64 x =>
    refine safeValue_visible fun c hc => ?_
    rcases LawfulFloatText.show64_alnum _ c hc with hc | rfl | rfl
    · exact visible_alnum hc
    · decide
    · decide
  | char c => cases ht; cases hr
  | str s =>
    cases ht
    rw [readBytes] at hr
    obtain ⟨y, hy, he⟩ := Option.map_eq_some_iff.1 hr
    cases he
    rwa [← fromUtf8_iff.1 hy]
  | unitVariant n => cases ht; cases hr
  | newtypeStruct _ ih =>
    cases ht with
    | newtypeStruct ht =>
      rw [readBytes] at hr
      obtain ⟨y, hy, he⟩ := Option.map_eq_some_iff.1 hr
      cases he
      exact ih ht hy
  | newtypeVariant => cases ht; cases hr

theorem sentHeader_safe {v : Val} {x : Bytes} (h : SentHeader v x) {t : Ty} (ht : HasTy v t) {b : Bytes}
    (hr : readBytes t b = some v) (hb : SafeValue b) : SafeValue x := by
  induction h generalizing t with
  | sent h => exact sent_safe h ht hr hb
  | bytes x => cases ht; cases hr; exact hb
  | unitStruct n =>
    cases ht
    rw [readBytes] at hr
    obtain ⟨y, hy, he⟩ := Option.bind_eq_some_iff.1 hr
    split at he
    · rename_i hyn
      subst hyn
      rwa [← fromUtf8_iff.1 hy]
    · cases he
  | some _ ih =>
    cases ht with
    | some ht =>
      rw [readBytes] at hr
      obtain ⟨y, hy, he⟩ := Option.map_eq_some_iff.1 hr
      cases he
      exact ih ht hy
  | newtypeStruct _ ih =>
    cases ht with
    | newtypeStruct ht =>
      rw [readBytes] at hr
      obtain ⟨y, hy, he⟩ := Option.map_eq_some_iff.1 hr
      cases he
      exact ih ht hy
  | newtypeVariant => cases ht; cases hr

omit [LawfulFloatText] in
theorem mem_fieldEntries {β : Type} {present : Val → β → Prop} {absent : Val → Prop}
    {fs : List (Str × Val)} {es : List (Str × β)} (h : FieldEntries present absent fs es) {n : Str}
    {x : β} (hm : (n, x) ∈ es) : ∃ v, (n, v) ∈ fs ∧ present v x := by
  induction h with
  | nil => cases hm
  | absent _ _ ih =>
    obtain ⟨v, h1, h2⟩ := ih hm
    exact ⟨v, List.mem_cons_of_mem _ h1, h2⟩
  | @present m w y _ _ hp _ ih =>
    rcases List.mem_cons.1 hm with he | hm
    · cases he; exact ⟨w, List.mem_cons_self .., hp⟩
    · obtain ⟨v, h1, h2⟩ := ih hm
      exact ⟨v, List.mem_cons_of_mem _ h1, h2⟩

omit [LawfulFloatText] in
theorem safe_ascii {hs : List Header} (h : SafeHeaders hs) : AsciiNames hs := by
  intro x hx b hb
  have := isToken_facts ((h x hx).1.2 b hb)
  omega

/-- If a value is read from headers that HTTP can express, the headers with which it is sent are such. -/
theorem own_safe {v : Val} {own : List Header} (h : Written SentHeader utf8 v own) {t : Ty}
    (ht : HasTy v t) (hst : isStruct t = true) (hd : ((names t).map lowerText).Nodup)
    {hs : List Header} (hs' : SafeHeaders hs) (hr : deHeaders t hs = .ok v) : SafeHeaders own := by
  induction h generalizing t with
  | single h => intro x hx; cases hx
  | @struct fs es h =>
    cases ht with
    | @struct _ ts ht =>
      have hdt : DistinctNames ts := nodup_of_map hd
      have hdf : DistinctNames fs := by
        unfold DistinctNames; rw [HasTyFields_names ht]; exact hdt
      rw [deHeaders_struct hdt (safe_ascii hs')] at hr
      cases hc : readStruct readBytes ts (entries hs) with
      | none => rw [hc] at hr; cases hr
      | some u =>
        rw [hc] at hr
        cases hr
        obtain ⟨fs', hc, he⟩ := Option.map_eq_some_iff.1 hc
        cases he
        intro x hx
        obtain ⟨⟨n, x⟩, hxe, rfl⟩ := List.mem_map.1 hx
        obtain ⟨v, hm, hp⟩ := mem_fieldEntries h hxe
        obtain ⟨t, ht1, ht2⟩ := HasTyFields_type ht hm
        obtain ⟨w, h1, h2⟩ := mem_collect hc ht1
        have : w = v := by
          have h3 := lookup_of_mem hdf h2
          rw [lookup_of_mem hdf hm] at h3
          exact (Option.some.inj h3).symm
        subst this
        rw [fieldValue] at h1
        split at h1
        · split at h1
          · cases h1; exact absurd .none (sentHeader_not_omitted hp)
          · cases h1
        · rename_i e hf
          have he : e ∈ (entries hs).filter (fun e => decide (e.1 = n)) := by rw [hf]; simp
          obtain ⟨he, hn⟩ := List.mem_filter.1 he
          obtain ⟨y, hy, rfl⟩ := List.mem_map.1 he
          have hn : nameText y.1 = n := by simpa using hn
          subst hn
          exact ⟨safeName_lower (hs' y hy).1, sentHeader_safe hp ht2 h1 (hs' y hy).2⟩
        · cases h1
  | structVariant h => cases ht; cases hst
  | map h => cases ht; cases hst
  | some _ ih =>
    cases ht with
    | some ht =>
      rw [deHeaders_option] at hr
      obtain ⟨x, hx, hw⟩ := Res.bind_ok_eq hr
      cases hw
      exact ih ht hst hd hx
  | newtypeStruct _ ih =>
    cases ht with
    | newtypeStruct ht =>
      rw [deHeaders_newtype] at hr
      obtain ⟨x, hx, hw⟩ := Res.bind_ok_eq hr
      cases hw
      exact ih ht hst hd hx
  | newtypeVariant => cases ht; cases hst

end

end Htrpc
