/-
A value that is sent and received is the same (C72).
-/
import Verif.Spec.Integrity
import Verif.Props.Accept
import Verif.Lemmas.Maps
import Verif.Lemmas.ToyFloat

namespace Htrpc
open Spec

section
variable [LawfulFloatText]

theorem readText_sentAs {v : Val} {s : Str} (h : SentAs v s) {t : Ty} (ht : HasTy v t) {w : Val}
    (hw : readText t s = some w) : Same v w := by
  induction h generalizing t w with
  | bool b =>
    cases ht
    cases b
    · cases hw; exact .refl _
    · cases hw
  | int =>
    cases ht with
    | int _ _ hf =>
      rw [readText, parseInt_showInt hf] at hw
      cases hw; exact .refl _
  | f32 x =>
    cases ht
    rw [readText] at hw
    cases hn : isNaN32 x with
    | false => rw [LawfulFloatText.parse32_show64 x hn] at hw; cases hw; exact .refl _
    | true =>
      obtain ⟨y, hy, rfl⟩ := Option.map_eq_some_iff.1 hw
      exact .nan32 hn (LawfulFloatText.parse32_nan x y hn hy)
  | f64 x =>
    cases ht
    rw [readText] at hw
    cases hn : isNaN64 x with
    | false => rw [LawfulFloatText.parse64_show64 x hn] at hw; cases hw; exact .refl _
    | true =>
      obtain ⟨y, hy, rfl⟩ := Option.map_eq_some_iff.1 hw
      exact .nan64 hn (LawfulFloatText.parse64_nan x y hn hy)
  | char => cases ht; cases hw
  | str => cases ht; cases hw; exact .refl _
  | unitVariant => cases ht; cases hw
  | newtypeStruct _ ih =>
    cases ht with
    | newtypeStruct ht =>
      rw [readText] at hw
      obtain ⟨y, hy, rfl⟩ := Option.map_eq_some_iff.1 hw
      exact .newtypeStruct (ih ht hy)
  | newtypeVariant => cases ht; cases hw

theorem readText_sent {v : Val} {s : Str} (h : SentOpt v s) {t : Ty} (ht : HasTy v t) {w : Val}
    (hw : readText t s = some w) : Same v w := by
  induction h generalizing t w with
  | sent h => exact readText_sentAs h ht hw
  | some _ ih =>
    cases ht with
    | some ht =>
      rw [readText] at hw
      obtain ⟨y, hy, rfl⟩ := Option.map_eq_some_iff.1 hw
      exact .some (ih ht hy)
  | newtypeStruct _ ih =>
    cases ht with
    | newtypeStruct ht =>
      rw [readText] at hw
      obtain ⟨y, hy, rfl⟩ := Option.map_eq_some_iff.1 hw
      exact .newtypeStruct (ih ht hy)
  | newtypeVariant => cases ht; cases hw

omit [LawfulFloatText] in
/-- An absent value that is read as such: it was of an option type. -/
theorem absent_arrives {v : Val} (h : Omitted v) {t : Ty} (ht : HasTy v t) (ho : isOption t = true) :
    FieldArrives v .none := by
  cases ht with
  | none => exact .same (.refl _)
  | some _ => cases h with | some h => exact .collapsed h
  | _ => cases ho

omit [LawfulFloatText] in
theorem collect_arrives {arrives : Str → Val → Val → Prop} {value : Str → Ty → Option Val}
    {fs : List (Str × Val)} {ts : List (Str × Ty)} (h : HasTyFields fs ts)
    (hv : ∀ n v t w, (n, v) ∈ fs → (n, t) ∈ ts → HasTy v t → value n t = some w → arrives n v w)
    {ws : List (Str × Val)} (hw : collectFields value ts = some ws) : FieldsArrive arrives fs ws := by
  match h with
  | .nil => cases hw; exact .nil
  | .cons (n := n) (v := v) (t := t) h1 h2 =>
    rw [collectFields] at hw
    split at hw
    · rename_i w ws' hw1 hw2
      cases hw
      exact .cons (hv n v t w (List.mem_cons_self ..) (List.mem_cons_self ..) h1 hw1)
        (collect_arrives h2 (fun n v t w a b => hv n v t w (List.mem_cons_of_mem _ a)
          (List.mem_cons_of_mem _ b)) hw2)
    · cases hw

theorem readEntries_arrive {kvs : List (Val × Val)} {ps : List (Str × Str)}
    (h : MapEntries SentOpt kvs ps) {k v : Ty} (ht : HasTyMap kvs k v) {es : List (Val × Val)}
    (he : readEntries readText k v ps = some es) : EntriesArrive kvs es := by
  induction h generalizing es with
  | nil => cases he; exact .nil
  | absent _ ho _ ih => cases ht with | cons _ _ ht => exact .lost ho (ih ht he)
  | present ha hb _ ih =>
    cases ht with
    | cons t1 t2 t3 =>
      rw [readEntries] at he
      split at he
      · rename_i a b m h1 h2 h3
        cases he
        exact .same (readText_sent ha t1 h1) (readText_sent hb t2 h2) (ih t3 h3)
      · cases he

end

section
variable [FloatText]

/-- A single value, which was sent as nothing, is not received. -/
theorem QueryDe.de_single {v : Val} {s : Str} (h : SentOpt v s) {t : Ty} (ht : HasTy v t) :
    de t (new []) = .err .invalid := by
  induction h generalizing t with
  | sent h =>
    induction h generalizing t with
    | newtypeStruct _ ih =>
      cases ht with
      | newtypeStruct ht => rw [de]; show Res.bind (de _ _) _ = _; rw [ih ht]; rfl
    | _ => cases ht <;> rw [de] <;> rfl
  | some _ ih => cases ht with | some ht => rw [de]; show Res.bind (de _ _) _ = _; rw [ih ht]; rfl
  | newtypeStruct _ ih => cases ht with | newtypeStruct ht => rw [de]; show Res.bind (de _ _) _ = _; rw [ih ht]; rfl
  | newtypeVariant => cases ht; rw [de]

theorem deQuery_option (t : Ty) (q : Option Str) :
    deQuery (.option t) q = (deQuery t q).bind fun v => .ok (.some v) := by
  unfold deQuery
  rw [QueryDe.de]
  show Res.bind (Res.bind (QueryDe.de t _) _) _ = Res.bind (Res.bind (QueryDe.de t _) _) _
  cases QueryDe.de t (QueryDe.new (formParse (q.getD []))) <;> rfl

theorem deQuery_newtype (t : Ty) (q : Option Str) :
    deQuery (.newtypeStruct t) q = (deQuery t q).bind fun v => .ok (.newtypeStruct v) := by
  unfold deQuery
  rw [QueryDe.de]
  show Res.bind (Res.bind (QueryDe.de t _) _) _ = Res.bind (Res.bind (QueryDe.de t _) _) _
  cases QueryDe.de t (QueryDe.new (formParse (q.getD []))) <;> rfl

theorem deHeaders_option (t : Ty) (hs : List Header) :
    deHeaders (.option t) hs = (deHeaders t hs).bind fun v => .ok (.some v) := by
  unfold deHeaders
  rw [HeaderDe.de]
  show Res.bind (Res.bind (HeaderDe.de t _) _) _ = Res.bind (Res.bind (HeaderDe.de t _) _) _
  cases HeaderDe.de t (HeaderDe.new hs) <;> rfl

theorem deHeaders_newtype (t : Ty) (hs : List Header) :
    deHeaders (.newtypeStruct t) hs = (deHeaders t hs).bind fun v => .ok (.newtypeStruct v) := by
  unfold deHeaders
  rw [HeaderDe.de]
  show Res.bind (Res.bind (HeaderDe.de t _) _) _ = Res.bind (Res.bind (HeaderDe.de t _) _) _
  cases HeaderDe.de t (HeaderDe.new hs) <;> rfl

omit [FloatText] in
theorem Res.bind_ok_eq {α β : Type} {r : Res α} {f : α → Res β} {b : β} (h : r.bind f = .ok b) :
    ∃ a, r = .ok a ∧ f a = .ok b := by
  cases r with
  | ok a => exact ⟨a, rfl, h⟩
  | err => cases h
  | panic => cases h

theorem serQuery_written {v : Val} {q : Str} (h : serQuery v = .ok q) :
    Written SentOpt id v (formParse q) := by
  by_cases hw : ∃ ps, Written SentOpt id v ps
  · obtain ⟨ps, hw⟩ := hw
    obtain ⟨q', h1, h2⟩ := (C69_query v).1 ps hw
    rw [h1] at h
    cases h
    exact h2 ▸ hw
  · rw [(C69_query v).2 hw] at h
    cases h

theorem serHeaders_written {v : Val} {before hs : List Header}
    (h : serHeaders before v = .ok hs) : ∃ own, hs = before ++ own ∧ Written SentHeader utf8 v own := by
  by_cases hw : ∃ ps, Written SentHeader utf8 v ps
  · obtain ⟨ps, hw⟩ := hw
    rw [(C69_headers v before).1 ps hw] at h
    cases h
    exact ⟨ps, rfl, hw⟩
  · rw [(C69_headers v before).2 hw] at h
    cases h

end

/-! ### Headers -/

section
variable [LawfulFloatText]

theorem readBytes_sentAs {v : Val} {s : Str} (h : SentAs v s) {t : Ty} (ht : HasTy v t) {w : Val}
    (hw : readBytes t (utf8 s) = some w) : Same v w := by
  refine readText_sentAs h ht ?_
  induction h generalizing t w with
  | newtypeStruct _ ih =>
    cases ht with
    | newtypeStruct ht =>
      rw [readBytes] at hw
      obtain ⟨y, hy, rfl⟩ := Option.map_eq_some_iff.1 hw
      rw [readText, ih ht hy]
      rfl
  | _ =>
    cases ht
    all_goals first | (rw [readBytes, fromUtf8_utf8] at hw; exact hw) | cases hw

theorem readBytes_sent {v : Val} {b : Bytes} (h : SentHeader v b) {t : Ty} (ht : HasTy v t) {w : Val}
    (hw : readBytes t b = some w) : Same v w := by
  induction h generalizing t w with
  | sent h => exact readBytes_sentAs h ht hw
  | bytes => cases ht; cases hw; exact .refl _
  | unitStruct n =>
    cases ht
    rw [readBytes, fromUtf8_utf8, Option.bind_some, if_pos rfl] at hw
    cases hw; exact .refl _
  | some _ ih =>
    cases ht with
    | some ht =>
      rw [readBytes] at hw
      obtain ⟨y, hy, rfl⟩ := Option.map_eq_some_iff.1 hw
      exact .some (ih ht hy)
  | newtypeStruct _ ih =>
    cases ht with
    | newtypeStruct ht =>
      rw [readBytes] at hw
      obtain ⟨y, hy, rfl⟩ := Option.map_eq_some_iff.1 hw
      exact .newtypeStruct (ih ht hy)
  | newtypeVariant => cases ht; cases hw

end

theorem ascii_of_utf8 {n : Str} (h : ∀ b ∈ utf8 n, b.toNat < 0x80) : Ascii n := by
  intro c hc
  cases hu : utf8Char c with
  | nil => exact absurd hu (utf8Char_ne_nil c)
  | cons b bs =>
    have hb : b ∈ utf8Char c := by rw [hu]; exact List.mem_cons_self ..
    have hlt := h b (List.mem_flatMap.2 ⟨c, hc, hb⟩)
    have := mem_utf8Char_ascii hb hlt
    have key : ∀ n, n < 128 → (Char.ofNat n).toNat < 0x80 := by decide
    rw [this]
    exact key _ hlt

theorem nameText_ascii {n : Str} (h : Ascii n) : nameText (utf8 n) = lowerText n := by
  induction n with
  | nil => rfl
  | cons c n ih =>
    have hc := h c (List.mem_cons_self ..)
    rw [utf8_cons, utf8Char_ascii hc, List.cons_append, List.nil_append]
    have : nameText (UInt8.ofNat c.toNat :: utf8 n) =
      (Char.ofNat (UInt8.ofNat c.toNat).toNat).toLower :: nameText (utf8 n) := rfl
    rw [this, u8_toNat (by omega), Char.ofNat_toNat, ih fun d hd => h d (List.mem_cons_of_mem _ hd)]
    rfl

theorem lowerName_nameText {n : Bytes} (h : ∀ b ∈ n, b.toNat < 0x80) : LowerName (nameText n) := by
  have key : ∀ n, n < 128 → (Char.ofNat n).toLower.toNat < 0x80 ∧
      (Char.ofNat n).toLower.isUpper = false := by decide
  intro c hc
  obtain ⟨b, hb, rfl⟩ := List.mem_map.1 hc
  exact key _ (h b hb)

theorem lowerText_lower {n : Str} (h : LowerName n) : lowerText n = n := by
  unfold lowerText
  refine (List.map_congr_left fun c hc => ?_).trans (List.map_id n)
  exact toLower_of_not_upper (h c hc).1 (h c hc).2

end Htrpc
