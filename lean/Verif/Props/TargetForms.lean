/-
What request targets mean that are not in origin form, and which of them make the server panic (C92).
-/
import Verif.Spec.TargetForms
import Verif.Props.Target

namespace Htrpc
open Spec

theorem anySlash_iff {c : Char} : AnySlash c ↔ isSlash c = true := by simp [AnySlash, isSlash]

/-! ### Schemes -/

theorem parseSchemeAux_iff {t scheme rest : Str} : parseSchemeAux t = some (scheme, rest) ↔
    ∃ s, (∀ d ∈ s, InScheme d) ∧ t = s ++ ':' :: rest ∧ scheme = s.map Char.toLower := by
  induction t generalizing scheme with
  | nil =>
    refine ⟨nofun, ?_⟩
    rintro ⟨s, -, h, -⟩
    cases s <;> cases h
  | cons c t ih =>
    rw [parseSchemeAux]
    split
    · rename_i hc
      subst hc
      constructor
      · rintro ⟨⟩
        exact ⟨[], by simp, rfl, rfl⟩
      · rintro ⟨s, h1, h2, rfl⟩
        cases s with
        | nil => cases h2; rfl
        | cons d s =>
          simp only [List.cons_append, List.cons.injEq] at h2
          obtain ⟨rfl, -⟩ := h2
          have : InScheme ':' := h1 _ List.mem_cons_self
          rcases this with h | h | h | h <;> exact absurd h (by decide)
    · rename_i hc
      split
      · rename_i hin
        constructor
        · intro h
          cases hr : parseSchemeAux t with
          | none => rw [hr] at h; cases h
          | some r =>
            rw [hr] at h
            simp only [Option.map_some, Option.some.injEq, Prod.mk.injEq] at h
            obtain ⟨rfl, rfl⟩ := h
            obtain ⟨s, h1, h2, h3⟩ := ih.1 hr
            refine ⟨c :: s, ?_, by rw [h2]; rfl, by rw [h3]; rfl⟩
            intro d hd
            rcases List.mem_cons.1 hd with rfl | hd
            · exact hin
            · exact h1 d hd
        · rintro ⟨s, h1, h2, rfl⟩
          cases s with
          | nil => cases h2; exact absurd rfl hc
          | cons d s =>
            simp only [List.cons_append, List.cons.injEq] at h2
            obtain ⟨rfl, h2⟩ := h2
            rw [ih.2 ⟨s, fun e he => h1 e (List.mem_cons_of_mem _ he), h2, rfl⟩]
            rfl
      · rename_i hin
        refine ⟨nofun, ?_⟩
        rintro ⟨s, h1, h2, rfl⟩
        cases s with
        | nil => cases h2; exact absurd rfl hc
        | cons d s =>
          simp only [List.cons_append, List.cons.injEq] at h2
          obtain ⟨rfl, h2⟩ := h2
          exact absurd (h1 _ List.mem_cons_self) hin

/-- **C92.** The scheme of a target is what stands before its first colon, if that is a letter and
then letters, digits, `+`, `-` and `.`. -/
theorem C92_scheme (t scheme rest : Str) :
    parseScheme t = some (scheme, rest) ↔ SchemeOf t scheme rest := by
  cases t with
  | nil =>
    refine ⟨nofun, ?_⟩
    rintro ⟨c, s, -, -, h, -⟩
    cases h
  | cons c t =>
    have hin : ∀ {c : Char}, c.isAlpha = true → InScheme c := fun h =>
      .inl (by simp [Char.isAlphanum, h])
    rw [parseScheme]
    split
    · rename_i hc
      rw [parseSchemeAux_iff]
      constructor
      · rintro ⟨s, h1, h2, rfl⟩
        cases s with
        | nil => cases h2; exact absurd hc (by decide)
        | cons d s =>
          simp only [List.cons_append, List.cons.injEq] at h2
          obtain ⟨rfl, rfl⟩ := h2
          exact ⟨c, s, hc, fun e he => h1 e (List.mem_cons_of_mem _ he), rfl, rfl⟩
      · rintro ⟨d, s, h1, h2, h3, rfl⟩
        refine ⟨d :: s, ?_, h3, rfl⟩
        intro e he
        rcases List.mem_cons.1 he with rfl | he
        · exact hin h1
        · exact h2 e he
    · rename_i hc
      refine ⟨nofun, ?_⟩
      rintro ⟨d, s, h1, -, h3, -⟩
      cases h3
      exact absurd h1 hc

theorem scheme_unique {t s s' r r' : Str} (h : SchemeOf t s r) (h' : SchemeOf t s' r') :
    s = s' ∧ r = r' := by
  rw [← C92_scheme] at h h'
  rw [h] at h'
  simpa using h'

theorem schemeless_iff {t : Str} : Schemeless t ↔ parseScheme t = none := by
  constructor
  · intro h
    cases hp : parseScheme t with
    | none => rfl
    | some x => exact absurd ((C92_scheme t x.1 x.2).1 hp) (h _ _)
  · intro h s r hs
    rw [(C92_scheme t s r).2 hs] at h
    cases h

theorem known_iff {s : Str} : s ∈ knownSchemes ↔ s = "file".toList ∨ s ∈ specialSchemes := by
  simp only [knownSchemes, specialSchemes, List.mem_cons, List.not_mem_nil, or_false]
  constructor
  · rintro (h | h | h | h | h | h) <;> simp [h]
  · rintro (h | h | h | h | h | h) <;> simp [h]

/-! ### Behind the host -/

theorem twoSlashes_iff {r : Str} :
    TwoSlashes r ↔ r.length ≥ 2 ∧ (r.take 2).all isSlash = true := by
  constructor
  · rintro ⟨c, d, s, rfl, h1, h2⟩
    rw [anySlash_iff] at h1 h2
    simp [h1, h2]
  · intro h
    match r with
    | [] => simp at h
    | [c] => simp at h
    | c :: d :: s =>
      simp at h
      exact ⟨c, d, s, rfl, anySlash_iff.2 h.1, anySlash_iff.2 h.2⟩

/-- Either there are two slashes or the text is read like one in origin form. -/
theorem behind_or (r : Str) : TwoSlashes r ∨ ∃ t, BehindHost r t := by
  match r with
  | [] => exact .inr ⟨_, .relative nofun⟩
  | c :: r =>
    by_cases hc : AnySlash c
    · match r with
      | [] => exact .inr ⟨_, .slash hc nofun⟩
      | d :: s =>
        by_cases hd : AnySlash d
        · exact .inl ⟨c, d, s, rfl, hc, hd⟩
        · exact .inr ⟨_, .slash hc (by rintro _ _ ⟨⟩; exact hd)⟩
    · exact .inr ⟨_, .relative (by rintro _ _ ⟨⟩; exact hc)⟩

theorem behind_not_two {r t : Str} (h : BehindHost r t) : ¬ TwoSlashes r := by
  rintro ⟨c, d, s, rfl, hc, hd⟩
  cases h with
  | slash _ h => exact h _ _ rfl hd
  | relative h => exact h _ _ rfl hc

theorem behind_unique {r t t' : Str} (h : BehindHost r t) (h' : BehindHost r t') : t = t' := by
  cases h with
  | slash h1 h2 =>
    cases h' with
    | slash => rfl
    | relative h => exact absurd h1 (h _ _ rfl)
  | relative h =>
    cases h' with
    | slash h1 h2 => exact absurd h1 (h _ _ rfl)
    | relative => rfl

theorem behind_origin {r t : Str} (h : BehindHost r t) : ∃ u, t = '/' :: u ∧ NoSlash u ∧
    (∀ c ∈ u, c ∈ r) := by
  cases h with
  | slash h1 h2 => exact ⟨_, rfl, h2, fun c hc => List.mem_cons_of_mem _ hc⟩
  | relative h => exact ⟨_, rfl, h, fun c hc => hc⟩

theorem against_behind (o : UrlOracle) {r u : Str} (h : BehindHost r ('/' :: u)) :
    parseAgainstBase o r = some (pathQuery true u) := by
  generalize ht : '/' :: u = t at h
  cases h with
  | @slash c r h1 h2 =>
    cases ht
    rw [parseAgainstBase.eq_def]
    simp only [anySlash_iff.1 h1, if_true]
    cases u with
    | nil => rfl
    | cons d s =>
      have : ¬ isSlash d = true := fun hd => h2 d s rfl (anySlash_iff.2 hd)
      simp only [this]
      rfl
  | @relative r h =>
    cases ht
    cases r with
    | nil => rfl
    | cons c s =>
      have : ¬ isSlash c = true := fun hc => h c s rfl (anySlash_iff.2 hc)
      rw [parseAgainstBase.eq_def]
      simp only [this]
      rfl

theorem against_two (o : UrlOracle) {r : Str} (h : TwoSlashes r) : parseAgainstBase o r = o.hier r := by
  obtain ⟨c, d, s, rfl, hc, hd⟩ := h
  rw [anySlash_iff] at hc hd
  simp only [parseAgainstBase, hc, hd, if_true]

/-! ### C92 -/

/-- **C92.** Every target has one form. -/
theorem C92_every_target (t : Str) : ∃ f, HasForm t f ∧ ∀ f', HasForm t f' → f' = f := by
  have huniq : ∀ {f f'}, HasForm t f → HasForm t f' → f' = f := by
    intro f f' h h'
    have hhost : ∀ {t'}, ReadAs t t' → NamesHost t → False := by
      intro t' hr hn
      cases hr with
      | plain h1 h2 =>
        cases hn with
        | plain _ h => exact behind_not_two h2 h
        | http h => exact h1 _ _ h
        | special h => exact h1 _ _ h
        | other h => exact h1 _ _ h
      | http h1 h2 =>
        cases hn with
        | plain h => exact h _ _ h1
        | http h h3 => cases (scheme_unique h1 h).2; exact behind_not_two h2 h3
        | special h _ hne => exact hne (scheme_unique h h1).1
        | other h hk => cases (scheme_unique h1 h).1; exact hk (by decide)
    have hread : ∀ {t' s r}, ReadAs t t' → SchemeOf t s r → s ∉ knownSchemes → False := by
      intro t' s r hr hs hk
      cases hr with
      | plain h1 h2 => exact h1 _ _ hs
      | http h1 h2 => cases (scheme_unique h1 hs).1; exact hk (by decide)
    have hother : ∀ {s r}, NamesHost t → SchemeOf t s r → s ∉ knownSchemes →
        ∃ u, r = '/' :: '/' :: u := by
      intro s r hn hs hk
      cases hn with
      | plain h => exact absurd hs (h _ _)
      | http h => cases (scheme_unique h hs).1; exact absurd (by decide) hk
      | special h hk' => cases (scheme_unique h hs).1; exact absurd hk' hk
      | other h => exact ⟨_, (scheme_unique hs h).2⟩
    cases h with
    | origin h =>
      cases h' with
      | origin h' =>
        congr 1
        cases h with
        | plain h1 h2 =>
          cases h' with
          | plain _ h3 => exact behind_unique h3 h2
          | http h3 => exact absurd h3 (h1 _ _)
        | http h1 h2 =>
          cases h' with
          | plain h3 => exact absurd h1 (h3 _ _)
          | http h3 h4 => cases (scheme_unique h1 h3).2; exact behind_unique h4 h2
      | other h1 h2 => exact (hread h h1 h2).elim
      | «opaque» h1 h2 => exact (hread h h1 h2).elim
      | host h' => exact (hhost h h').elim
    | other h1 h2 h3 =>
      cases h' with
      | origin h => exact (hread h h1 h2).elim
      | other h4 => cases (scheme_unique h1 h4).2; rfl
      | «opaque» h4 _ h5 => cases (scheme_unique h1 h4).2; simp at h5
      | host h =>
        obtain ⟨u, hu⟩ := hother h h1 h2
        cases hu
        simp at h3
    | «opaque» h1 h2 h3 =>
      cases h' with
      | origin h => exact (hread h h1 h2).elim
      | other h4 => cases (scheme_unique h1 h4).2; simp at h3
      | «opaque» => rfl
      | host h =>
        obtain ⟨u, hu⟩ := hother h h1 h2
        cases hu
        simp at h3
    | host h =>
      cases h' with
      | origin h' => exact (hhost h' h).elim
      | other h1 h2 h3 =>
        obtain ⟨u, hu⟩ := hother h h1 h2
        cases hu
        simp at h3
      | «opaque» h1 h2 h3 =>
        obtain ⟨u, hu⟩ := hother h h1 h2
        cases hu
        simp at h3
      | host => rfl
  have hex : ∃ f, HasForm t f := by
    cases hp : parseScheme t with
    | none =>
      have hs := schemeless_iff.2 hp
      rcases behind_or t with h | ⟨t', h⟩
      · exact ⟨_, .host (.plain hs h)⟩
      · exact ⟨_, .origin (.plain hs h)⟩
    | some x =>
      obtain ⟨s, r⟩ := x
      have hs := (C92_scheme t s r).1 hp
      by_cases hk : s ∈ knownSchemes
      · by_cases hh : s = "http".toList
        · subst hh
          rcases behind_or r with h | ⟨t', h⟩
          · exact ⟨_, .host (.http hs h)⟩
          · exact ⟨_, .origin (.http hs h)⟩
        · exact ⟨_, .host (.special hs hk hh)⟩
      · by_cases h1 : r.head? = some '/'
        · cases r with
          | nil => cases h1
          | cons c r =>
            cases h1
            by_cases h2 : r.head? = some '/'
            · cases r with
              | nil => cases h2
              | cons c r => cases h2; exact ⟨_, .host (.other hs hk)⟩
            · exact ⟨_, .other hs hk h2⟩
        · exact ⟨_, .opaque hs hk h1⟩
  obtain ⟨f, hf⟩ := hex
  exact ⟨f, hf, fun f' hf' => huniq hf hf'⟩

theorem parseTarget_shown (o : UrlOracle) {t : Str} (h : ∀ c ∈ t, 0x20 < c.toNat) :
    parseTarget o t = match parseScheme t with
      | none => parseAgainstBase o t
      | some (scheme, rest) =>
        if scheme = "file".toList then o.hier t
        else if scheme ∈ specialSchemes then
          if scheme = "http".toList ∧ ¬ (rest.length ≥ 2 ∧ (rest.take 2).all isSlash) then
            parseAgainstBase o rest
          else o.hier t
        else
          match rest with
          | '/' :: '/' :: _ => o.hier t
          | '/' :: r => some (pathQuery false r)
          | r => some ⟨none, (pathQuery false r).query⟩ := by
  rw [parseTarget]
  simp only [strip_visible h]
  rfl

theorem parse_origin_form (o : UrlOracle) {t t' : Str} (hv : ∀ c ∈ t, 0x20 < c.toNat)
    (h : ReadAs t t') : ∃ u, t' = '/' :: u ∧ NoSlash u ∧ (∀ c ∈ u, 0x20 < c.toNat) ∧
      parseTarget o t = some (pathQuery true u) := by
  cases h with
  | plain h1 h2 =>
    obtain ⟨u, rfl, h3, h4⟩ := behind_origin h2
    refine ⟨u, rfl, h3, fun c hc => hv c (h4 c hc), ?_⟩
    rw [parseTarget_shown o hv, schemeless_iff.1 h1]
    exact against_behind o h2
  | http h1 h2 =>
    rename_i rest
    obtain ⟨u, rfl, h3, h4⟩ := behind_origin h2
    have hmem : ∀ c ∈ rest, c ∈ t := by
      obtain ⟨d, s, -, -, rfl, -⟩ := h1
      intro c hc
      simp [hc]
    refine ⟨u, rfl, h3, fun c hc => hv c (hmem c (h4 c hc)), ?_⟩
    have hn := behind_not_two h2
    rw [twoSlashes_iff] at hn
    rw [parseTarget_shown o hv, (C92_scheme _ _ _).2 h1]
    simp only
    rw [if_neg (by decide), if_pos (by decide), if_pos ⟨by trivial, hn⟩]
    exact against_behind o h2

/-- **C92.** A target that is read like one in origin form means the same to the server. -/
theorem C92_read_as (o : UrlOracle) (t t' : Str) (hv : ∀ c ∈ t, 0x20 < c.toNat)
    (h : HasForm t (.origin t')) : parseTarget o t = parseTarget o t' := by
  cases h with
  | origin h =>
    obtain ⟨u, rfl, h1, h2, h3⟩ := parse_origin_form o hv h
    have hs : ReadAs ('/' :: u) ('/' :: u) :=
      .plain (schemeless_iff.2 (parseScheme_slash u)) (.slash (.inl rfl) h1)
    obtain ⟨u', he, -, -, h4⟩ := parse_origin_form o (t := '/' :: u) (by
      intro c hc
      rcases List.mem_cons.1 hc with rfl | hc
      · decide
      · exact h2 c hc) hs
    cases he
    rw [h3, h4]

theorem pathQuery_other {r p : Str} {q : Option Str} (h : PathAndQuery r p q) :
    pathQuery false r = ⟨some (resolve ((splitBy (fun c => c == '/') p).map
        (writtenOut plainInPath))), q.map (writtenOut plainInQuery)⟩ := by
  have hp : ∀ {p : Str}, '?' ∉ p → '#' ∉ p → ∀ c ∈ p, decide (c ≠ '?' ∧ c ≠ '#') = true := by
    intro p h1 h2 c hc
    have h1 : c ≠ '?' := fun e => h1 (e ▸ hc)
    have h2 : c ≠ '#' := fun e => h2 (e ▸ hc)
    simp [h1, h2]
  have hseg : ∀ p : Str, normSegs [] (splitBy (fun c => c == '/' || (false && c == '\\')) p) =
      resolve ((splitBy (fun c => c == '/') p).map (writtenOut plainInPath)) := by
    intro p
    rw [normSegs_resolve _ (splitBy_nonempty _ _)]
    simp only [Bool.false_and, Bool.or_false, pctEncode_path]
  have hfr : ∀ {stop : Char → Bool}, stop '#' = false → ∀ {f : Str}, Fragment f →
      ∀ c s, f = c :: s → stop c = false := by
    intro stop hst f hf c s he
    rcases hf with rfl | ⟨g, rfl⟩
    · cases he
    · cases he; exact hst
  cases h with
  | @path p f h1 h2 hf =>
    have hst := takeWhile_stop (p := fun c => decide (c ≠ '?' ∧ c ≠ '#')) (b := f) (hp h1 h2)
      (hfr (by decide) hf)
    rw [pathQuery, hst.1, hst.2, hseg]
    rcases hf with rfl | ⟨g, rfl⟩ <;> rfl
  | @query p q f h1 h2 hq hf =>
    have hst := takeWhile_stop (p := fun c => decide (c ≠ '?' ∧ c ≠ '#')) (b := '?' :: (q ++ f))
      (hp h1 h2) (by intro c s he; cases he; decide)
    have hst' := takeWhile_stop (p := fun c => decide (c ≠ '#')) (a := q) (b := f)
      (by intro c hc; simp; exact fun e => hq (e ▸ hc)) (hfr (by decide) hf)
    rw [pathQuery, hst.1, hst.2, hseg]
    simp only [hst'.1, pctEncode_query, Option.map_some]

theorem parse_other_form (o : UrlOracle) {t r : Str} (hv : ∀ c ∈ t, 0x20 < c.toNat)
    (h : HasForm t (.other r)) : parseTarget o t = some (pathQuery false r) := by
  cases h with
  | other h1 h2 h3 =>
    rw [known_iff, not_or] at h2
    rw [parseTarget_shown o hv, (C92_scheme _ _ _).2 h1]
    simp only [h2.1, h2.2, if_false]
    cases r with
    | nil => rfl
    | cons c r =>
      split
      · rename_i he
        cases he
        simp at h3
      · rename_i he
        cases he
        rfl
      · rename_i hne
        exact absurd rfl (hne (c :: r))

/-- **C92.** The server finds exactly the segments and the parameters of a target that has some. -/
theorem C92_target (o : UrlOracle) (t : Str) (hv : ∀ c ∈ t, 0x20 < c.toNat) (segs : List Str)
    (ps : List (Str × Str)) (ht : MeansTarget t segs ps) :
    ∃ q, parseTarget o t = some ⟨some segs, q⟩ ∧ formParse (q.getD []) = ps := by
  cases ht with
  | @origin t' h1 h2 =>
    rw [C92_read_as o t t' hv h1]
    refine C85_target o t' ?_ segs ps h2
    cases h1 with
    | origin h1 =>
      obtain ⟨u, rfl, -, h, -⟩ := parse_origin_form o hv h1
      intro c hc
      rcases List.mem_cons.1 hc with rfl | hc
      · decide
      · exact h c hc
  | @other r p q L h1 h2 h3 h4 h5 =>
    refine ⟨q.map (writtenOut plainInQuery), ?_, ?_⟩
    · rw [parse_other_form o hv h1, pathQuery_other h2, h4,
        (pieces_iff (p := fun c => c == '/') (by simp)).1 h3]
    · cases q <;> exact parameters_written h5

section
variable [LawfulFloatText] [UrlText]

/-- **C92.** What is done with a request whose target has segments is decided by them, its parameters
and its headers, also if the target is not in origin form. -/
theorem C92_verdict (cfg : ServerCfg) (h : ReqHead) (hv : ∀ c ∈ h.target, 0x20 < c.toNat)
    (segs : List Str) (ps : List (Str × Str)) (ht : MeansTarget h.target segs ps)
    (hw : ∀ s ∈ cfg.services, WellNamed s.reqTy) (hn : AsciiNames h.headers) (x : Verdict)
    (hj : Judged cfg h x) : Decided cfg h segs ps x := by
  obtain ⟨q, hp, hq⟩ := C92_target cfg.oracle h.target hv segs ps ht
  exact judged_decided cfg h segs ps hp hq hw hn x hj

/-- **C92**, both directions, where no maps are declared. -/
theorem C92_verdict_iff (cfg : ServerCfg) (h : ReqHead) (hv : ∀ c ∈ h.target, 0x20 < c.toNat)
    (segs : List Str) (ps : List (Str × Str)) (ht : MeansTarget h.target segs ps)
    (hw : ∀ s ∈ cfg.services, WellNamed s.reqTy ∧ Mapless s.reqTy) (hn : AsciiNames h.headers)
    (x : Verdict) : Judged cfg h x ↔ Decided cfg h segs ps x := by
  obtain ⟨q, hp, hq⟩ := C92_target cfg.oracle h.target hv segs ps ht
  exact judged_iff_decided cfg h segs ps hp hq hw hn x

end

theorem parse_opaque_form (o : UrlOracle) {t : Str} (hv : ∀ c ∈ t, 0x20 < c.toNat)
    (h : HasForm t .opaque) : ∃ q, parseTarget o t = some ⟨none, q⟩ := by
  cases h with
  | «opaque» h1 h2 h3 =>
    rename_i s r
    rw [known_iff, not_or] at h2
    refine ⟨(pathQuery false r).query, ?_⟩
    rw [parseTarget_shown o hv, (C92_scheme _ _ _).2 h1]
    simp only [h2.1, h2.2, if_false]
    split
    · simp at h3
    · simp at h3
    · rfl

/-- **C92.** What a target with a host or a file means is left to the URL parser. -/
theorem C92_host (o : UrlOracle) (t : Str) (hv : ∀ c ∈ t, 0x20 < c.toNat) (h : HasForm t .host) :
    parseTarget o t = o.hier t := by
  cases h with
  | host h =>
    rw [parseTarget_shown o hv]
    cases h with
    | plain h1 h2 => rw [schemeless_iff.1 h1]; exact against_two o h2
    | http h1 h2 =>
      rw [(C92_scheme _ _ _).2 h1]
      rw [twoSlashes_iff] at h2
      simp only
      rw [if_neg (by decide), if_pos (by decide), if_neg fun h => h.2 h2]
    | special h1 h2 h3 =>
      rw [(C92_scheme _ _ _).2 h1]
      simp only [h3, false_and, if_false]
      rcases known_iff.1 h2 with h | h <;> simp [h]
    | other h1 h2 =>
      rw [known_iff, not_or] at h2
      rw [(C92_scheme _ _ _).2 h1]
      simp only [h2.1, h2.2, if_false]

/-- **C92.** The server panics exactly for the targets with a scheme of another kind and no slash
behind it, and those with a host to which the URL parser gives no path. -/
theorem C92_panics_iff (cfg : ServerCfg) (h : ReqHead) (hv : ∀ c ∈ h.target, 0x20 < c.toNat) :
    Pathless cfg h ↔ HasForm h.target .opaque ∨
      HasForm h.target .host ∧ ∃ t, cfg.oracle.hier h.target = some t ∧ t.segs = none := by
  constructor
  · rintro ⟨t, h1, h2⟩
    obtain ⟨f, hf, -⟩ := C92_every_target h.target
    cases f with
    | origin t' =>
      cases hf with
      | origin hf =>
        obtain ⟨u, -, -, -, h3⟩ := parse_origin_form cfg.oracle hv hf
        rw [h3] at h1
        cases h1
        cases h2
    | other r =>
      rw [parse_other_form _ hv hf] at h1
      cases h1
      cases h2
    | «opaque» => exact .inl hf
    | host => exact .inr ⟨hf, t, by rw [← C92_host _ _ hv hf, h1], h2⟩
  · rintro (hf | ⟨hf, t, h1, h2⟩)
    · obtain ⟨q, h3⟩ := parse_opaque_form cfg.oracle hv hf
      exact ⟨_, h3, rfl⟩
    · exact ⟨t, by rw [C92_host _ _ hv hf, h1], h2⟩

/-- **C92.** So a connection panics on a request with such a target and on no other. -/
theorem C92_panics [FloatText] [UrlText] [JsonText] [Wire] (cfg : ServerCfg) (c : ConnState)
    (h : ReqHead) (rest : Bytes) (hc : c.phase = .readHead) (hh : Wire.head c.input = .done h rest)
    (hv : ∀ c ∈ h.target, 0x20 < c.toNat) (hn : ¬ HasForm h.target .host) :
    ConnEffect.panicked ∈ (c.step cfg .input).2 ↔ HasForm h.target .opaque := by
  rw [C42_panics_iff cfg c h rest hc hh, C92_panics_iff cfg h hv]
  exact ⟨fun h => h.elim id fun h => absurd h.1 hn, .inl⟩

/-- **C92.** A target that names no host is never refused as a URL. -/
theorem C92_url (o : UrlOracle) (t : Str) (hv : ∀ c ∈ t, 0x20 < c.toNat)
    (h : ¬ HasForm t .host) : parseTarget o t ≠ none := by
  obtain ⟨f, hf, -⟩ := C92_every_target t
  cases f with
  | origin t' =>
    cases hf with
    | origin hf =>
      obtain ⟨u, -, -, -, h3⟩ := parse_origin_form o hv hf
      rw [h3]
      nofun
  | other r => rw [parse_other_form _ hv hf]; nofun
  | «opaque» =>
    obtain ⟨q, h3⟩ := parse_opaque_form o hv hf
    rw [h3]
    nofun
  | host => exact absurd hf h

/-- **C92.** Every target that names no host and does not make the server panic has segments and
parameters. -/
theorem C92_means (t : Str) (h : ¬ HasForm t .host) (h' : ¬ HasForm t .opaque) :
    ∃ segs ps, MeansTarget t segs ps := by
  obtain ⟨f, hf, -⟩ := C92_every_target t
  cases f with
  | origin t' =>
    have hu : ∃ u, t' = '/' :: u ∧ NoSlash u := by
      cases hf with
      | origin hf =>
        cases hf with
        | plain h1 h2 =>
          obtain ⟨u, e, h3, -⟩ := behind_origin h2
          exact ⟨u, e, h3⟩
        | http h1 h2 =>
          obtain ⟨u, e, h3, -⟩ := behind_origin h2
          exact ⟨u, e, h3⟩
    obtain ⟨u, rfl, h3⟩ := hu
    obtain ⟨segs, ps, ht, -⟩ := C85_every_target u fun c s hc => not_or.1 (h3 c s hc)
    exact ⟨segs, ps, .origin hf ht⟩
  | other r =>
    obtain ⟨p, q, hpq⟩ : ∃ p q, PathAndQuery r p q := by
      obtain ⟨p, q, ho⟩ := origin_exists (r := 'a' :: r) (by rintro _ _ ⟨⟩; decide)
      generalize ht : '/' :: 'a' :: r = t at ho
      cases ho with
      | @path p f h1 h2 =>
        cases p with
        | nil => rcases h2 with rfl | ⟨g, rfl⟩ <;> simp at ht
        | cons c p =>
          simp only [List.cons_append, List.cons.injEq, true_and] at ht
          obtain ⟨rfl, rfl⟩ := ht
          exact ⟨p, none, .path (fun h => h1.1 (List.mem_cons_of_mem _ h))
            (fun h => h1.2.1 (List.mem_cons_of_mem _ h)) h2⟩
      | @query p q f h1 h2 h3 =>
        cases p with
        | nil => simp at ht
        | cons c p =>
          simp only [List.cons_append, List.cons.injEq, true_and] at ht
          obtain ⟨rfl, rfl⟩ := ht
          exact ⟨p, some q, .query (fun h => h1.1 (List.mem_cons_of_mem _ h))
            (fun h => h1.2.1 (List.mem_cons_of_mem _ h)) h2 h3⟩
    exact ⟨_, _, .other hf hpq (pieces_splitBy (p := fun c => c == '/') (by simp) p) rfl
      (parameters_iff.2 rfl)⟩
  | «opaque» => exact absurd hf h'
  | host => exact absurd hf h

/-! ### Examples -/

theorem schemeless_no_colon {t : Str} (h : ':' ∉ t) : Schemeless t := by
  rintro s r ⟨c, u, -, -, rfl, -⟩
  simp at h

/-- `C92`: these are read like `/a/b?x#f`. -/
example : ∀ t ∈ ["/a/b?x#f".toList, "a/b?x#f".toList, "\\a/b?x#f".toList, "http:/a/b?x#f".toList,
    "HTTP:a/b?x#f".toList], HasForm t (.origin "/a/b?x#f".toList) := by
  have hb : NoSlash "a/b?x#f".toList := by
    have : "a/b?x#f".toList = 'a' :: "/b?x#f".toList := by decide
    rw [this]
    rintro _ _ ⟨⟩ (h | h) <;> exact absurd h (by decide)
  have he : "/a/b?x#f".toList = '/' :: "a/b?x#f".toList := by decide
  intro t ht
  simp only [List.mem_cons, List.not_mem_nil, or_false] at ht
  rcases ht with rfl | rfl | rfl | rfl | rfl
  · refine .origin (.plain (schemeless_no_colon (by decide)) ?_)
    rw [he]
    exact .slash (.inl rfl) hb
  · refine .origin (.plain (schemeless_no_colon (by decide)) ?_)
    rw [he]
    exact .relative hb
  · refine .origin (.plain (schemeless_no_colon (by decide)) ?_)
    rw [he]
    exact .slash (.inr rfl) hb
  · refine .origin (.http (rest := '/' :: "a/b?x#f".toList) ((C92_scheme _ _ _).1 (by decide)) ?_)
    rw [he]
    exact .slash (.inl rfl) hb
  · refine .origin (.http (rest := "a/b?x#f".toList) ((C92_scheme _ _ _).1 (by decide)) ?_)
    rw [he]
    exact .relative hb

/-- `C92`: the other forms. A backslash does not count behind a scheme of another kind. -/
example : HasForm "x-y:/\\a/b".toList (.other "\\a/b".toList) ∧ HasForm "users:7".toList .opaque ∧
    HasForm "x:\\\\a".toList .opaque ∧ HasForm "//a/b".toList .host ∧
    HasForm "http:/\\a".toList .host ∧ HasForm "https:a".toList .host ∧
    HasForm "file:a".toList .host ∧ HasForm "x://a".toList .host := by
  refine ⟨?_, ?_, ?_, ?_, ?_, ?_, ?_, ?_⟩
  · exact .other (s := "x-y".toList) ((C92_scheme _ _ _).1 (by decide)) (by decide) (by decide)
  · exact .opaque (s := "users".toList) (r := ['7']) ((C92_scheme _ _ _).1 (by decide)) (by decide)
      (by decide)
  · exact .opaque (s := "x".toList) (r := ['\\', '\\', 'a']) ((C92_scheme _ _ _).1 (by decide))
      (by decide) (by decide)
  · exact .host (.plain (schemeless_no_colon (by decide)) ⟨'/', '/', "a/b".toList, by decide, .inl rfl,
      .inl rfl⟩)
  · exact .host (.http (rest := ['/', '\\', 'a']) ((C92_scheme _ _ _).1 (by decide)) ⟨_, _, _, rfl,
      .inl rfl, .inr rfl⟩)
  · exact .host (.special (s := "https".toList) (rest := ['a']) ((C92_scheme _ _ _).1 (by decide))
      (by decide) (by decide))
  · exact .host (.special (s := "file".toList) (rest := ['a']) ((C92_scheme _ _ _).1 (by decide))
      (by decide) (by decide))
  · exact .host (.other (s := "x".toList) (rest := ['a']) ((C92_scheme _ _ _).1 (by decide))
      (by decide))

end Htrpc
