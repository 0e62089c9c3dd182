/-
C91: which texts are JSON, and what they mean.
-/
import Verif.Lemmas.JsonGrammar
import Verif.Props.Texts
import Verif.Props.JsonText
import Verif.Props.Problem

namespace Htrpc
open Spec JsonCodec

section
variable [FloatText]

/-- **C91.** Exactly the texts of the grammar that are not nested too deeply are read, each as what it
means. -/
theorem C91_texts (s : Str) (j : Json) : parse s = some j ↔ IsJson s j ∧ j.depth ≤ 127 :=
  parse_iff s j

/-- **C91.** The grammar is unambiguous. -/
theorem C91_unambiguous (s : Str) (j k : Json) (hj : IsJson s j) (hk : IsJson s k) : j = k := by
  have key : ∀ {j}, IsJson s j → ∀ d, j.depth ≤ d → ∃ r,
      value (2 * s.length + 1) d (skipWs s) = some (j, r) := by
    rintro j ⟨w, t, w', rfl, hw, ht, hw'⟩ d hd
    have h := value_complete ht d (2 * (w ++ (t ++ w')).length + 1) w' (by
      have := ends_blank hw' ends_nil
      rwa [List.append_nil] at this) hd (by simp; omega)
    exact ⟨w', by rw [skipWs_blank hw, skipWs_means ht, h]⟩
  obtain ⟨r, h1⟩ := key hj (max j.depth k.depth) (by omega)
  obtain ⟨r', h2⟩ := key hk (max j.depth k.depth) (by omega)
  rw [h1] at h2
  cases h2
  rfl

/-- What is written is a text of the grammar. -/
theorem C91_written (p : Bool) (j : Json) (hj : j.plain = true) (hd : j.depth ≤ 127) : IsJson (render p j) j :=
  ((C91_texts _ _).1 (parse_render p j hj hd)).1

variable {T : Type}

/-- A text and the value of an embedded type it stands for. -/
def StandsFor (d : Documents T) (s : Str) (x : T) : Prop :=
  ∃ j, IsJson s j ∧ j.depth ≤ 127 ∧ d.ofDoc j = some x

theorem ofJson_iff (d : Documents T) (f g) (s : Str) (x : T) :
    (d.codecs f g).ofJson s = some x ↔ StandsFor d s x := by
  show (parse s).bind d.ofDoc = some x ↔ _
  rw [Option.bind_eq_some_iff]
  constructor
  · rintro ⟨j, h1, h2⟩
    obtain ⟨h3, h4⟩ := (C91_texts s j).1 h1
    exact ⟨j, h3, h4, h2⟩
  · rintro ⟨j, h1, h2, h3⟩
    exact ⟨j, (C91_texts s j).2 ⟨h1, h2⟩, h3⟩

omit [FloatText] in
theorem items_iff {β : Type} {means : Ty → β → Val → Prop} {json : β → T → Prop} (cs : Codecs T)
    (hs : ∀ b v, means .str b v → ∃ s, v = .str s)
    (hj : ∀ b x, json b x ↔ ∃ s, means .str b (.str s) ∧ cs.ofJson s = some x)
    (hm : ∀ b v, ¬ means (.seq (.int .u8)) b v) (entries : List (Str × β)) :
    ∀ (ts : List (Str × ItemTy)) (is : List (Str × Item T)),
      (∃ vs, FieldsFrom means entries (ItemTy.raws ts) vs ∧ ItemTy.finishAll cs ts vs = .ok is) ↔
        ItemsFrom means json entries ts is
  | [], is => by
    constructor
    · rintro ⟨vs, h1, h2⟩
      cases h1
      cases h2
      exact .nil
    · intro h
      cases h
      exact ⟨[], .nil, rfl⟩
  | (n, t) :: ts, is => by
    have ih := items_iff cs hs hj hm entries ts
    constructor
    · rintro ⟨vs, h1, h2⟩
      have split : ∀ {m v vs}, ItemTy.finishAll cs ((n, t) :: ts) ((m, v) :: vs) = .ok is →
          ∃ i is', t.finish cs v = .ok i ∧ ItemTy.finishAll cs ts vs = .ok is' ∧ is = (n, i) :: is' := by
        intro m v vs h
        rw [ItemTy.finishAll] at h
        obtain ⟨i, k1, h⟩ := Res.bind_eq_ok.1 h
        obtain ⟨is', k2, h⟩ := Res.bind_eq_ok.1 h
        cases h
        exact ⟨i, is', k1, k2, rfl⟩
      rw [show ItemTy.raws ((n, t) :: ts) = (n, t.raw) :: ItemTy.raws ts from rfl] at h1
      generalize hraw : t.raw = raw at h1
      cases h1 with
      | present e1 e2 e3 e4 e5 =>
        obtain ⟨i, is', k1, k2, rfl⟩ := split h2
        have rest := (ih is').1 ⟨_, e5, k2⟩
        subst hraw
        cases t with
        | plain t =>
          cases k1
          exact .plain e1 e2 e3 e4 rest
        | json p =>
          obtain ⟨s, rfl⟩ := hs _ _ e4
          rw [ItemTy.finish] at k1
          obtain ⟨x, k3, k4⟩ := Res.bind_eq_ok.1 k1
          cases k4
          refine .json e1 e2 e3 ((hj _ _).2 ⟨s, e4, ?_⟩) rest
          cases hc : cs.ofJson s with
          | none => rw [hc] at k3; cases k3
          | some y => rw [hc] at k3; cases k3; rfl
        | msgpack => exact absurd e4 (hm _ _)
      | @absent _ o _ _ e1 e2 =>
        obtain ⟨i, is', k1, k2, rfl⟩ := split h2
        have rest := (ih is').1 ⟨_, e2, k2⟩
        cases t with
        | plain t =>
          cases hraw
          cases k1
          exact .absent e1 rest
        | json p => cases hraw
        | msgpack => cases hraw
    · intro h
      cases h with
      | plain e1 e2 e3 e4 e5 =>
        obtain ⟨vs, h1, h2⟩ := (ih _).2 e5
        exact ⟨_, .present e1 e2 e3 e4 h1, by rw [ItemTy.finishAll, h2]; rfl⟩
      | absent e1 e2 =>
        obtain ⟨vs, h1, h2⟩ := (ih _).2 e2
        exact ⟨_, .absent e1 h1, by rw [ItemTy.finishAll, h2]; rfl⟩
      | json e1 e2 e3 e4 e5 =>
        obtain ⟨vs, h1, h2⟩ := (ih _).2 e5
        obtain ⟨s, k1, k2⟩ := (hj _ _).1 e4
        exact ⟨_, .present e1 e2 e3 k1 h1, by rw [ItemTy.finishAll, h2, ItemTy.finish, k2]; rfl⟩

omit [FloatText] in
theorem deItems_iff (cs : Codecs T) (ts : List (Str × ItemTy)) (de : Ty → Res Val) (is : List (Str × Item T))
    (P : List (Str × Val) → Prop)
    (h : ∀ v, de (.struct (ItemTy.raws ts)) = .ok v ↔ ∃ vs, v = .struct vs ∧ P vs) :
    deItems cs ts de = .ok is ↔ ∃ vs, P vs ∧ ItemTy.finishAll cs ts vs = .ok is := by
  unfold deItems
  constructor
  · intro hh
    obtain ⟨v, h1, h2⟩ := Res.bind_eq_ok.1 hh
    obtain ⟨vs, rfl, h3⟩ := (h v).1 h1
    exact ⟨vs, h3, h2⟩
  · rintro ⟨vs, h1, h2⟩
    rw [(h _).2 ⟨vs, rfl, h1⟩]
    exact h2

omit [FloatText] in
theorem distinct_raws {ts : List (Str × ItemTy)} (h : DistinctNames ts) : DistinctNames (ItemTy.raws ts) := by
  have hn : (ItemTy.raws ts).map Prod.fst = ts.map Prod.fst := by simp [ItemTy.raws]
  rw [DistinctNames, hn]
  exact h

/-- **C91.** What the server makes of a query with fields that are embedded as JSON: each is read from
the only parameter of its name, if this is a JSON text that stands for a value of the type. -/
theorem C91_query (d : Documents T) (f g) (ts : List (Str × ItemTy)) (hd : DistinctNames ts) (q : Option Str)
    (hq : Tame (ItemTy.raws ts) (formParse (q.getD []))) (is : List (Str × Item T)) :
    deItems (d.codecs f g) ts (fun t => deQuery t q) = .ok is ↔
      ItemsFrom ParamText (StandsFor d) (formParse (q.getD [])) ts is := by
  rw [deItems_iff _ _ _ _ _ (C89_query _ (distinct_raws hd) q hq)]
  refine items_iff _ ?_ ?_ ?_ _ ts is
  · intro b v h
    cases h with
    | scalar h => cases h
    | str => exact ⟨b, rfl⟩
  · intro b x
    rw [← ofJson_iff d f g]
    constructor
    · intro h; exact ⟨b, .str b, h⟩
    · rintro ⟨s, h1, h2⟩
      cases h1 with
      | scalar h => cases h
      | str s => exact h2
  · intro b v h
    cases h with
    | scalar h => cases h

/-- **C91.** The same for headers. -/
theorem C91_headers (d : Documents T) (f g) (ts : List (Str × ItemTy)) (hd : DistinctNames ts) (hs : List Header)
    (hn : AsciiNames hs) (is : List (Str × Item T)) :
    deItems (d.codecs f g) ts (fun t => deHeaders t hs) = .ok is ↔
      ItemsFrom ValueText (fun b x => ∃ s, b = utf8 s ∧ StandsFor d s x)
        (hs.map fun h => (nameText h.1, h.2)) ts is := by
  rw [deItems_iff _ _ _ _ _ (C89_headers _ (distinct_raws hd) hs hn)]
  refine items_iff _ ?_ ?_ ?_ _ ts is
  · intro b v h
    cases h with
    | scalar h => cases h
    | str s => exact ⟨s, rfl⟩
  · intro b x
    simp only [← ofJson_iff d f g]
    constructor
    · rintro ⟨s, rfl, h⟩; exact ⟨s, .str s, h⟩
    · rintro ⟨s, h1, h2⟩
      generalize hv : Val.str s = v at h1
      cases h1 with
      | scalar h => cases h; 
      | str s' => cases hv; exact ⟨s, rfl, h2⟩
  · intro b v h
    cases h with
    | scalar h => cases h

variable [UrlText]

/-- **C91.** Exactly these bodies are problem documents: JSON texts, in UTF-8, that describe a problem.
Everything else leaves the problem as it is. -/
theorem C91_problem (r : ProblemResponse) (b : Bytes) : letI := jsonText
    (∀ s j p, b = utf8 s → IsJson s j → j.depth ≤ 127 → IsProblem j p → r.setBody b = ⟨r.status, p⟩) ∧
    ((∀ s j p, b = utf8 s → IsJson s j → j.depth ≤ 127 → ¬ IsProblem j p) → r.setBody b = r) := by
  let := jsonText
  constructor
  · rintro s j p rfl h1 h2 h3
    refine C36_document_replaces r _ p ⟨j, ?_, h3⟩
    show (fromUtf8 (utf8 s)).bind parse = some j
    rw [fromUtf8_utf8]
    exact (C91_texts s j).2 ⟨h1, h2⟩
  · intro h
    refine C36_malformed_ignored r b ?_
    rintro p ⟨j, h1, h2⟩
    obtain ⟨s, h3, h4⟩ := Option.bind_eq_some_iff.1 (show (fromUtf8 b).bind parse = some j from h1)
    obtain ⟨h5, h6⟩ := (C91_texts s j).1 h4
    exact h s j p (fromUtf8_iff.1 h3) h5 h6 h2

end

/-! ### Examples -/

section Examples

/-- A text with white space, escapes and a number. -/
theorem ex_text : letI := toyFloat
    IsJson " [ \"\\u00e9\" ,\n-7 ]".toList (.arr [.str "é".toList, .num (-7)]) := by
  let := toyFloat
  refine ⟨" ".toList, "[ \"\\u00e9\" ,\n-7 ]".toList, [], rfl, by unfold Blank; decide, ?_, by simp [Blank]⟩
  refine .arr (t := " \"\\u00e9\" ,\n-7 ".toList) ?_
  refine .more (w := " ".toList) (t := "\"\\u00e9\"".toList) (w' := " ".toList) (u := "\n-7 ".toList)
    (by unfold Blank; decide) ?_ (by unfold Blank; decide) ?_
  · refine .str (t := "\\u00e9".toList) ?_
    refine .cons (s := "\\u00e9".toList) (t := []) (.code ?_) .nil
    exact .mk (k := 0) (l := 0) (m := 14) (n := 9) (.inl rfl) (.inl rfl) (.inl rfl) (.inl rfl)
  · refine .one (w := "\n".toList) (t := "-7".toList) (w' := " ".toList) (by unfold Blank; decide) ?_
      (by unfold Blank; decide)
    exact .int (.neg (s := "7".toList) ⟨by unfold Digits; decide, by decide⟩ (by decide) (by decide))

/-- `C91_texts`, `C91_unambiguous`: it is read. -/
example : letI := toyFloat
    parse " [ \"\\u00e9\" ,\n-7 ]".toList = some (.arr [.str "é".toList, .num (-7)]) := by
  let := toyFloat
  exact (C91_texts _ _).2 ⟨ex_text, by simp [Json.depth, Json.depthAll]⟩

/-- `C91_texts`: a trailing comma is no JSON. -/
example : letI := toyFloat; ∀ j, j.depth ≤ 127 → ¬ IsJson "[1,]".toList j := by
  let := toyFloat
  intro j hd h
  have h1 := (C91_texts _ _).2 ⟨h, hd⟩
  have h2 : (parse "[1,]".toList).isNone = true := by decide +kernel
  rw [h1] at h2
  cases h2

/-- `C91_query`: a server gets the document that a client has written in its own way. -/
example : letI := toyFloat
    deItems (exDocuments.codecs (fun _ => none) (fun _ => none)) [("x".toList, .json true)]
      (fun t => deQuery t (some "x=+[+%22%5Cu00e9%22+,%0A-7+]".toList)) =
      .ok [("x".toList, .json true ⟨.arr [.str "é".toList, .num (-7)], by decide⟩)] := by
  let := toyFloat
  have hf : formParse ((some "x=+[+%22%5Cu00e9%22+,%0A-7+]".toList).getD []) =
    [("x".toList, " [ \"\\u00e9\" ,\n-7 ]".toList)] := by rfl
  refine (C91_query exDocuments _ _ _ (by unfold DistinctNames; decide) _ ?_ _).2 ?_
  · rw [hf]
    intro e he
    cases he
  · rw [hf]
    refine .json (a := []) (b := []) rfl (by simp) (by simp)
      ⟨.arr [.str "é".toList, .num (-7)], ex_text, by decide, ?_⟩ .nil
    have h : (Json.arr [.str "é".toList, .num (-7)]).plain = true ∧
        (Json.arr [.str "é".toList, .num (-7)]).depth ≤ 127 := by decide
    exact exDocuments.ofDoc_doc ⟨_, h⟩

end Examples
end Htrpc
