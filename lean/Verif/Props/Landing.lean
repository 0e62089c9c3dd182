/-
C112: where a call goes, whatever its arguments are.
-/
import Verif.Props.Conversation
import Verif.Props.Transparent
import Verif.Props.SentTarget
import Verif.Spec.Landing

set_option linter.unusedSectionVars false

namespace Htrpc
open Spec Http

theorem encode_dot {s : Str} : encodeSegment s = ".".toList ↔ strip s = ['.'] := by
  constructor
  · intro h
    have := congrArg pctDecode h
    rw [pctDecode_encodeSegment] at this
    exact utf8_injective (this.trans (by decide))
  · intro h; rw [encodeSegment_eq, h]; decide

theorem encode_dots {s : Str} : encodeSegment s = "..".toList ↔ strip s = ['.', '.'] := by
  constructor
  · intro h
    have := congrArg pctDecode h
    rw [pctDecode_encodeSegment] at this
    exact utf8_injective (this.trans (by decide))
  · intro h; rw [encodeSegment_eq, h]; decide

theorem pieces_root : pieces ['/'] = [] := if_pos rfl

theorem pieces_below {t : Str} (h : t ≠ []) : pieces ('/' :: t) = splitBy (· == '/') t := by
  rw [pieces, if_neg (by simpa using h), List.tail_cons]

theorem pieces_ne_root {t : Str} (h : t ≠ []) : pieces ('/' :: t) ≠ [[]] ∧ pieces ('/' :: t) ≠ [] := by
  rw [pieces_below h]
  refine ⟨?_, splitBy_nonempty _ _⟩
  cases t with
  | nil => exact absurd rfl h
  | cons c t =>
    rw [splitBy]
    split
    · intro he
      injection he with _ he
      exact splitBy_nonempty _ _ he
    · split <;> simp

/-- A push does to the pieces what `stepTo` says. -/
theorem pieces_pushSegment (t s : Str) :
    ∃ t', pushSegment ('/' :: t) s = '/' :: t' ∧ pieces ('/' :: t') = stepTo (pieces ('/' :: t)) s := by
  by_cases hl : s = ['.'] ∨ s = ['.', '.']
  · exact ⟨t, by rw [pushSegment]; exact if_pos hl, by rw [stepTo, if_pos hl]⟩
  have hp := show pushSegment ('/' :: t) s = _ from (by rw [pushSegment]; exact if_neg hl :
    pushSegment ('/' :: t) s =
      let p := if ('/' :: t).length = 1 then '/' :: t else '/' :: t ++ ['/']
      let e := encodeSegment s
      if e = "..".toList then
        if p.length = 1 then p else upToLastSlash p.dropLast
      else if e = ".".toList then p
      else p ++ e)
  rw [stepTo, if_neg hl]
  by_cases h2 : strip s = ['.', '.']
  · have he := encode_dots.2 h2
    simp only [if_pos h2]
    cases t with
    | nil =>
      refine ⟨[], ?_, by simp [pieces_root]⟩
      rw [hp]; simp [he]
    | cons x t =>
      have hd : (x :: (t ++ ['/'])).dropLast = x :: t := List.dropLast_concat (l₁ := x :: t)
      obtain ⟨a, b, hab, hb⟩ := lastSlash (x :: t)
      have hu : upToLastSlash ('/' :: x :: t) = a ++ ['/'] := by rw [hab, upToLastSlash_eq hb]
      have hbs : splitBy (· == '/') b = [b] := splitBy_none fun c hc => by
        simp; rintro rfl; exact hb hc
      cases a with
      | nil =>
        refine ⟨[], ?_, ?_⟩
        · rw [hp]; simp only [he]; simpa [hd] using hu
        · have : x :: t = b := by simpa using hab
          rw [this, pieces_root, pieces_below (by rw [← this]; simp), hbs]
          rfl
      | cons y a =>
        have hy : y = '/' := by simpa using (congrArg List.head? hab).symm
        subst hy
        have ht : x :: t = a ++ '/' :: b := by simpa using hab
        have h3 : pieces ('/' :: (a ++ ['/'])) = (pieces ('/' :: x :: t)).dropLast ++ [[]] := by
          rw [pieces_below (by simp), pieces_below (by simp), ht,
            splitBy_append_sep (p := (· == '/')) (c := '/') rfl a [],
            splitBy_append_sep (p := (· == '/')) (c := '/') rfl a b, hbs, List.dropLast_concat]
          rfl
        refine ⟨a ++ ['/'], ?_, ?_⟩
        · rw [hp]; simp only [he]; simpa [hd] using hu
        · rw [← h3, if_neg (pieces_ne_root (by simp)).1]
  simp only [if_neg h2]
  by_cases h1 : strip s = ['.']
  · have he := encode_dot.2 h1
    simp only [if_pos h1]
    cases t with
    | nil =>
      refine ⟨[], ?_, by simp [pieces_root]⟩
      rw [hp]; simp [he]
    | cons x t =>
      have h3 : pieces ('/' :: (x :: t ++ ['/'])) = pieces ('/' :: x :: t) ++ [[]] := by
        rw [pieces_below (by simp), pieces_below (by simp),
          splitBy_append_sep (p := (· == '/')) (c := '/') rfl (x :: t) []]
        rfl
      refine ⟨x :: t ++ ['/'], by rw [hp]; simp [he], ?_⟩
      rw [← h3, if_neg (pieces_ne_root (by simp)).1]
  simp only [if_neg h1, ← encode_written]
  have hp := pushSegment_eq (path := '/' :: t) (s := s) (fun h => h.elim h1 h2)
  have hn := splitBy_none (noSlash_encode s)
  cases t with
  | nil =>
    refine ⟨encodeSegment s, by rw [hp]; simp, ?_⟩
    by_cases hs : encodeSegment s = []
    · rw [hs, pieces_root]; rfl
    · rw [pieces_below hs, hn, pieces_root]
      simp [hs]
  | cons x t =>
    have h3 : pieces ('/' :: (x :: t ++ '/' :: encodeSegment s)) =
        pieces ('/' :: x :: t) ++ [encodeSegment s] := by
      rw [pieces_below (by simp), pieces_below (by simp),
        splitBy_append_sep (p := (· == '/')) (c := '/') rfl (x :: t) _, hn]
    refine ⟨x :: t ++ '/' :: encodeSegment s, by rw [hp]; simp, ?_⟩
    rw [← h3, if_neg (pieces_ne_root (by simp)).1]

theorem pieces_foldl (texts : List Str) (t : Str) :
    ∃ t', texts.foldl pushSegment ('/' :: t) = '/' :: t' ∧
      pieces ('/' :: t') = texts.foldl stepTo (pieces ('/' :: t)) := by
  induction texts generalizing t with
  | nil => exact ⟨t, rfl, rfl⟩
  | cons s texts ih =>
    obtain ⟨t1, h1, h2⟩ := pieces_pushSegment t s
    obtain ⟨t', h3, h4⟩ := ih t1
    exact ⟨t', by rw [List.foldl_cons, h1, h3], by rw [List.foldl_cons, h4, h2]⟩

/-- The segments of a pushed path. -/
theorem pathSegments_landing (texts : List Str) :
    pathSegments (texts.foldl pushSegment ['/']) = some (landing texts) := by
  obtain ⟨t, h1, h2⟩ := pieces_foldl texts []
  rw [h1, landing, ← pieces_root, ← h2]
  by_cases ht : t = []
  · subst ht; rfl
  · have := (pieces_ne_root ht).2
    rw [pieces_below ht] at this ⊢
    rw [pathSegments]
    split
    · rename_i h; exact absurd h this
    · rfl

section
variable [FloatText]

theorem landing_sent {m : Method} {e : EntryPoint} {fs : List (Str × Val)} (hd : DistinctNames fs)
    {body : Bytes} {r : Request} (h : serRequest m e (.struct fs) body = .ok r) :
    ∃ texts query ps, PathTexts e (fs.lookup "path".toList) texts ∧
      QueryEntries (fs.lookup "query".toList) ps ∧ formParse (query.getD []) = ps ∧
      ∀ o, parseTarget o r.target = some ⟨some (landing texts), query⟩ := by
  obtain ⟨p, q, hh, rfl, -, hreq⟩ := C23_only_in_order m e fs hd body r h
  have l1 : (requestFields p q hh).lookup "path".toList = p := by
    cases p <;> cases q <;> cases hh <;> rfl
  have l2 : (requestFields p q hh).lookup "query".toList = q := by
    cases p <;> cases q <;> cases hh <;> rfl
  rw [l1, l2]
  rw [requestOf] at hreq
  obtain ⟨path, hpath, hreq⟩ := Res.bind_ok_eq hreq
  obtain ⟨texts, ht, rfl⟩ := requestPath_texts hpath
  obtain ⟨query, hquery, hreq⟩ := Res.bind_ok_eq (r := requestQuery q) hreq
  obtain ⟨own, hown, hreq⟩ := Res.bind_ok_eq hreq
  obtain ⟨ps, hp, hps, hqc⟩ := requestQuery_entries hquery
  refine ⟨texts, query, ps, ht, hp, hps, fun o => ?_⟩
  have htarget : r.target = joinTarget (texts.foldl pushSegment ['/']) query := by
    cases hreq; cases query <;> rfl
  obtain ⟨segs', h1, h2, -⟩ := parseTarget_pushed o texts query hqc
  rw [pathSegments_landing] at h1
  cases h1
  rw [htarget, h2]

/-- **C112.** Whatever the arguments are, the target that is sent has, by the rules of URLs alone, the
segments where adding the constants and arguments of the path to the root leads. -/
theorem C112_segments (m : Method) (e : EntryPoint) (fs : List (Str × Val)) (hd : DistinctNames fs)
    (body : Bytes) (r : Request) (h : serRequest m e (.struct fs) body = .ok r) :
    ∃ texts ps, PathTexts e (fs.lookup "path".toList) texts ∧
      QueryEntries (fs.lookup "query".toList) ps ∧ TargetOf r.target (landing texts) ps := by
  have hsafe := C66_target_safe m e _ body r h
  obtain ⟨texts, query, ps, h1, h2, h3, h4⟩ := landing_sent hd h
  have := targetOf_parsed (t := r.target) (by
      revert hsafe; generalize r.target = t; intro hsafe; cases hsafe <;> exact ⟨_, rfl⟩)
    (fun c hc => ((Http.target_chars hsafe).2 c hc).1) h4
  rw [h3] at this
  exact ⟨texts, ps, h1, h2, this⟩

/-- **C112.** Without tabs and line breaks in them, that is: dot segments and empty segments at the
beginning are missing, everything else is in its place. -/
theorem C112_without_breaks (texts : List Str) (h : ∀ s ∈ texts, NoTabNl s) :
    landing texts = plainLanding texts := by
  have strip_id : ∀ s ∈ texts, strip s = s := by
    intro s hs
    obtain ⟨h1, h2, h3⟩ := h s hs
    rw [strip, List.filter_eq_self]
    intro c hc
    simp only [Bool.not_eq_true', Bool.or_eq_false_iff, beq_eq_false_iff_ne]
    exact ⟨⟨fun e => h1 (e ▸ hc), fun e => h2 (e ▸ hc)⟩, fun e => h3 (e ▸ hc)⟩
  have written_nil : ∀ s, writtenOut plainInSegment s = [] ↔ s = [] := by
    intro s
    constructor
    · intro h
      rw [← pctEncode_segment] at h
      have := pctDecode_pctEncode goodKeep_segment (utf8 s) []
      rw [h] at this
      exact utf8_eq_nil (by simpa [pctDecode] using this.symm)
    · rintro rfl; rfl
  -- below the root every segment is added
  have below : ∀ (L dir : List Str), (∀ s ∈ L, strip s = s) → dir ≠ [] → dir ≠ [[]] →
      L.foldl stepTo dir = dir ++ (L.filter fun s => s ≠ ['.'] ∧ s ≠ ['.', '.']).map
        (writtenOut plainInSegment) := by
    intro L
    induction L with
    | nil => intro dir _ _ _; simp
    | cons s L ih =>
      intro dir hs hne hroot
      have hL := fun s' h' => hs s' (List.mem_cons_of_mem _ h')
      rw [List.foldl_cons, stepTo]
      by_cases hd : s = ['.'] ∨ s = ['.', '.']
      · rw [if_pos hd, ih dir hL hne hroot, List.filter_cons_of_neg (by
          rcases hd with rfl | rfl <;> simp)]
      · have hd' := not_or.1 hd
        have h3 : dir ++ [writtenOut plainInSegment s] ≠ [[]] := by
          cases dir with
          | nil => exact absurd rfl hne
          | cons => simp
        simp only [if_neg hd, asSegment, hs s List.mem_cons_self, if_neg hd'.1, if_neg hd'.2, if_neg h3]
        rw [ih _ hL (by simp) h3, List.filter_cons_of_pos (by simpa using hd')]
        simp
  -- at the root empty segments are not
  have root : ∀ L : List Str, (∀ s ∈ L, strip s = s) → L.foldl stepTo [] =
      ((L.filter fun s => s ≠ ['.'] ∧ s ≠ ['.', '.']).dropWhile (· = [])).map
        (writtenOut plainInSegment) := by
    intro L
    induction L with
    | nil => intro _; rfl
    | cons s L ih =>
      intro hs
      have hL := fun s' h' => hs s' (List.mem_cons_of_mem _ h')
      rw [List.foldl_cons, stepTo]
      by_cases hd : s = ['.'] ∨ s = ['.', '.']
      · rw [if_pos hd, ih hL, List.filter_cons_of_neg (by rcases hd with rfl | rfl <;> simp)]
      · have hd' := not_or.1 hd
        simp only [if_neg hd, asSegment, hs s List.mem_cons_self, if_neg hd'.1, if_neg hd'.2]
        rw [List.filter_cons_of_pos (by simpa using hd')]
        by_cases h0 : s = []
        · subst h0
          rw [List.dropWhile_cons_of_pos (by simp), ← ih hL]
          rfl
        · have h3 : [] ++ [writtenOut plainInSegment s] ≠ [[]] := by
            simpa using fun h => h0 ((written_nil s).1 h)
          rw [if_neg h3, below _ _ hL (by simp) h3, List.dropWhile_cons_of_neg (by simpa using h0)]
          rfl
  rw [landing, root texts strip_id, plainLanding]
  cases (texts.filter fun s => s ≠ ['.'] ∧ s ≠ ['.', '.']).dropWhile (· = []) <;> rfl

omit [FloatText] in
theorem landing_carried {texts : List Str} (h : Carried texts) :
    landing texts = texts.map asSegment := by
  have h1 := pathSegments_landing texts
  rw [pathSegments_push h] at h1
  rw [← Option.some.inj h1]
  exact List.map_congr_left fun s _ => encode_written s

omit [FloatText] in
theorem matches_at {e : EntryPoint} {path : List Str} (h : Matches e path) :
    e.length = path.length ∧ ∀ (i : Nat) c, e[i]? = some (Seg.val c) → path[i]? = some c := by
  induction h with
  | nil => exact ⟨rfl, by simp⟩
  | cons hs _ ih =>
    refine ⟨by simp [ih.1], fun i c hi => ?_⟩
    cases i with
    | zero => simp at hi; subst hi; simpa [SegMatches] using Eq.symm hs
    | succ i => simpa using ih.2 i c (by simpa using hi)

omit [FloatText] in
theorem written_plain {c : Str} (h : ∀ ch ∈ c, PathChar ch) : asSegment c = c := by
  rw [← encode_written, encodeSegment_plain h]

omit [FloatText] in
/-- **C112.** If a URL can carry the path of a call, then it leads only to entry points with as many
segments as its own, which have no other constant where it has one, and where it has a variable and they a
constant, the argument is written as this constant. -/
theorem C112_same_places (e e' : EntryPoint) (hpc : PlainConsts e) (ss : List Str)
    (hc : Carried (instantiate e ss)) (hm : Matches e' (landing (instantiate e ss))) :
    e'.length = e.length ∧
      (∀ (i : Nat) c c', e[i]? = some (Seg.val c) → e'[i]? = some (Seg.val c') → c = c') ∧
      ∀ pre suf a c', e = pre ++ Seg.var :: suf → ss[varCount pre]? = some a →
        e'[pre.length]? = some (Seg.val c') → c' = asSegment a := by
  rw [landing_carried hc] at hm
  obtain ⟨h1, h2⟩ := matches_at hm
  refine ⟨by rw [h1, List.length_map, instantiate_length], fun i c c' hi hi' => ?_,
    fun pre suf a c' he ha hi' => ?_⟩
  · have h3 := h2 i c' hi'
    rw [List.getElem?_map, instantiate_const hi, Option.map_some,
      written_plain (hpc c (List.mem_of_getElem? hi))] at h3
    exact Option.some.inj h3
  · subst he
    have h3 := h2 _ c' hi'
    rw [List.getElem?_map, instantiate_arg ha, Option.map_some] at h3
    exact (Option.some.inj h3).symm

theorem serPath_same {e e' : EntryPoint} {vs vs' : List Val}
    (h1 : ∀ ss, SentAll vs ss → vs.length = varCount e → ∃ ss', SentAll vs' ss' ∧
      vs'.length = varCount e' ∧
      (instantiate e ss).foldl pushSegment ['/'] = (instantiate e' ss').foldl pushSegment ['/'])
    (h2 : ∀ ss', SentAll vs' ss' → vs'.length = varCount e' → ∃ ss, SentAll vs ss ∧
      vs.length = varCount e) :
    serPath e ['/'] (.tuple vs) = serPath e' ['/'] (.tuple vs') := by
  by_cases h : ∃ ss, SentAll vs ss ∧ vs.length = varCount e
  · obtain ⟨ss, hs, hl⟩ := h
    obtain ⟨ss', hs', hl', he⟩ := h1 ss hs hl
    rw [(C69_path e ['/'] _).1 _ _ (.tuple vs) hs hl, (C69_path e' ['/'] _).1 _ _ (.tuple vs') hs' hl', he]
  · have key : ∀ {e : EntryPoint} {vs : List Val}, (¬ ∃ ss, SentAll vs ss ∧ vs.length = varCount e) →
        serPath e ['/'] (.tuple vs) = .err .invalid := by
      intro e vs h
      refine (C69_path e ['/'] _).2 ?_
      rintro ⟨vs', ss, hv, hs, hl⟩
      cases hv
      exact h ⟨ss, hs, hl⟩
    rw [key h, key fun ⟨ss', hs', hl'⟩ => h (h2 ss' hs' hl')]

theorem serRequest_same {m : Method} {e e' : EntryPoint} {v v' : Val} {q h : Option Val} {body : Bytes}
    (hp : serPath e ['/'] v = serPath e' ['/'] v') :
    serRequest m e (.struct (requestFields (some v) q h)) body =
      serRequest m e' (.struct (requestFields (some v') q h)) body := by
  rw [C23_in_order, C23_in_order, if_neg (by simp), if_neg (by simp), requestOf, requestOf, requestPath,
    requestPath, hp]

omit [FloatText] in
theorem instantiate_append {e₁ : EntryPoint} {ss₁ : List Str} (h : ss₁.length = varCount e₁)
    (e₂ : EntryPoint) (ss₂ : List Str) :
    instantiate (e₁ ++ e₂) (ss₁ ++ ss₂) = instantiate e₁ ss₁ ++ instantiate e₂ ss₂ := by
  induction e₁ generalizing ss₁ with
  | nil =>
    obtain rfl : ss₁ = [] := List.length_eq_zero_iff.1 h
    rfl
  | cons g e₁ ih =>
    cases g with
    | val c =>
      simp only [List.cons_append, instantiate]
      rw [ih (by simpa [varCount] using h)]
    | var =>
      cases ss₁ with
      | nil => simp [varCount] at h
      | cons a ss₁ =>
        simp only [List.cons_append, instantiate]
        rw [ih (by simpa [varCount] using h)]

theorem sentAll_append {vs vs' : List Val} {ss ss' : List Str} (h : SentAll vs ss) (h' : SentAll vs' ss') :
    SentAll (vs ++ vs') (ss ++ ss') := by
  induction h with
  | nil => exact h'
  | cons h _ ih => exact .cons h ih

theorem sentAll_split {vs vs' : List Val} {ss : List Str} (h : SentAll (vs ++ vs') ss) :
    ∃ ss₁ ss₂, ss = ss₁ ++ ss₂ ∧ SentAll vs ss₁ ∧ SentAll vs' ss₂ ∧ ss₁.length = vs.length := by
  induction vs generalizing ss with
  | nil => exact ⟨[], ss, rfl, .nil, h, rfl⟩
  | cons v vs ih =>
    cases h with
    | cons h1 h2 =>
      obtain ⟨ss₁, ss₂, rfl, h3, h4, h5⟩ := ih h2
      exact ⟨_ :: ss₁, ss₂, rfl, .cons h1 h3, h4, by simp [h5]⟩

/-- **C112 (finding).** An argument `.` or `..` is left out: a call with it is the call of the procedure
with one variable less. -/
theorem C112_left_out (m : Method) (e₁ e₂ : EntryPoint) (vs₁ vs₂ : List Val)
    (hl : vs₁.length = varCount e₁) (s : Str) (hs : s = ".".toList ∨ s = "..".toList)
    (q h : Option Val) (body : Bytes) :
    serRequest m (e₁ ++ .var :: e₂)
        (.struct (requestFields (some (.tuple (vs₁ ++ .str s :: vs₂))) q h)) body =
      serRequest m (e₁ ++ e₂) (.struct (requestFields (some (.tuple (vs₁ ++ vs₂))) q h)) body := by
  have hcount : (vs₁ ++ .str s :: vs₂).length = varCount (e₁ ++ .var :: e₂) ↔
      (vs₁ ++ vs₂).length = varCount (e₁ ++ e₂) := by
    simp [varCount]; omega
  refine serRequest_same (serPath_same (fun ss hss hlen => ?_) fun ss hss hlen => ?_)
  · obtain ⟨ss₁, ss₂, rfl, k1, k2, k3⟩ := sentAll_split hss
    cases k2 with
    | @cons _ s' _ ss₂ k2 k4 =>
    cases k2
    refine ⟨ss₁ ++ ss₂, sentAll_append k1 k4, hcount.1 hlen, ?_⟩
    rw [instantiate_append (k3.trans hl), instantiate_append (k3.trans hl), instantiate,
      List.foldl_append, List.foldl_append, List.foldl_cons]
    congr 1
    rw [pushSegment, if_pos hs]
  · obtain ⟨ss₁, ss₂, rfl, k1, k2, k3⟩ := sentAll_split hss
    exact ⟨ss₁ ++ s :: ss₂, sentAll_append k1 (.cons (.str s) k2), hcount.2 hlen⟩

omit [FloatText] in
theorem push_up (a : Str) {x : Str} (hx : x ≠ "..".toList) (hs : strip x = "..".toList) :
    pushSegment (pushSegment ['/'] a) x = ['/'] := by
  obtain ⟨t, h1, h2⟩ := pieces_pushSegment [] a
  obtain ⟨t', h3, h4⟩ := pieces_pushSegment t x
  rw [h1, h3]
  have hx1 : x ≠ ".".toList := by rintro rfl; exact absurd hs (by decide)
  have hdir : ∃ w, pieces ('/' :: t) = [] ∨ pieces ('/' :: t) = [w] := by
    rw [h2, pieces_root, stepTo]
    split
    · exact ⟨[], .inl rfl⟩
    · simp only [List.dropLast_nil, List.nil_append]
      (repeat' split) <;> first | exact ⟨[], .inl rfl⟩ | exact ⟨_, .inr rfl⟩
  have : pieces ('/' :: t') = [] := by
    have hs' : strip x = ['.', '.'] := hs
    rw [h4, stepTo, if_neg (show ¬ (x = ['.'] ∨ x = ['.', '.']) from not_or.2 ⟨hx1, hx⟩)]
    simp only [if_pos hs']
    obtain ⟨w, hw | hw⟩ := hdir <;> rw [hw] <;> simp
  by_cases ht : t' = []
  · rw [ht]
  · exact absurd this (pieces_ne_root ht).2

/-- **C112 (finding).** An argument behind the first segment that is `..` with tabs or line breaks in it
takes this segment away: the call is, byte for byte, a call of the procedure whose entry point is the
rest. -/
theorem C112_other_procedure (m : Method) (a : Str) (e : EntryPoint) (x : Str) (hx : x ≠ "..".toList)
    (hs : strip x = "..".toList) (vs : List Val) (q h : Option Val) (body : Bytes) :
    serRequest m (.val a :: .var :: e) (.struct (requestFields (some (.tuple (.str x :: vs))) q h)) body =
      serRequest m e (.struct (requestFields (some (.tuple vs)) q h)) body := by
  have hcount : (Val.str x :: vs).length = varCount (.val a :: .var :: e) ↔ vs.length = varCount e := by
    simp [varCount]
  refine serRequest_same (serPath_same (fun ss hss hlen => ?_) fun ss hss hlen => ?_)
  · cases hss with
    | cons k1 k2 =>
      cases k1
      refine ⟨_, k2, hcount.1 hlen, ?_⟩
      rw [instantiate, instantiate, List.foldl_cons, List.foldl_cons, push_up a hx hs]
  · exact ⟨x :: ss, .cons (.str x) hss, hcount.2 hlen⟩

end

section
variable [LawfulFloatText] [UrlText] [JsonText] [MethodNames]

/-- **C112.** Whatever the arguments and the headers are: a server that reads a call hands it to a handler
only if this is registered with the method of the call, with an entry point that matches where the path of
the call leads, and no constant in front of a variable takes it away. -/
theorem C112_reached (cfg : ServerCfg) (m : Method) (e : EntryPoint) (fs : List (Str × Val))
    (hd : DistinctNames fs) (body : Bytes) (r : Request)
    (h : serRequest m e (.struct fs) body = .ok r) (more rest : Bytes) (head : ReqHead)
    (hr : readHead (writeRequest r ++ more) = .done head rest) :
    ∃ texts, PathTexts e (fs.lookup "path".toList) texts ∧
      ∀ s v, Judged cfg head (.call s v) →
        s.reg ∈ table cfg ∧ s.method = m ∧ Matches s.entry (landing texts) ∧
          ¬ Shadowed (table cfg) s.entry (landing texts) := by
  obtain ⟨texts, query, ps, h1, -, -, h4⟩ := landing_sent hd h
  refine ⟨texts, h1, fun s v hj => ?_⟩
  obtain ⟨e1, e2⟩ := head_line h hr
  generalize hv : Verdict.call s v = d at hj
  cases hj with
  | @call target segs s' v' a1 a2 a3 a4 =>
    cases hv
    rw [e2, h4] at a1
    cases a1
    cases a2
    rw [e1, dispatch_ok_iff (T := table cfg) (accept_conflictFree .nil)] at a3
    obtain ⟨g, g1, g2, g3, g4, g5⟩ := a3
    have hg : g = s.reg := by
      obtain ⟨x, -, rfl⟩ := List.mem_map.1 (mem_of_mem_accepted g1)
      cases g2
      rfl
    subst hg
    exact ⟨g1, g3, g4, g5⟩
  | _ => cases hv

/-- **C112.** And so on any connection: if a call arrives there after any complete requests, then a
handler is called for it only if it is such a handler. -/
theorem C112_called (cfg : ServerCfg) (g : ReadBody) (ms : List (ReqHead × Bytes)) (bytes : Bytes)
    (hms : FittingTexts ms bytes) (m : Method) (e : EntryPoint) (fs : List (Str × Val))
    (hd : DistinctNames fs) (body : Bytes) (r : Request)
    (h : serRequest m e (.struct fs) body = .ok r) (more : Bytes) (es : List ConnEvent) :
    letI := serverWire
    arriving es <+: bytes ++ (writeRequest r ++ more) → ReadsWhole cfg g .new es →
    ∀ head l s v w, (blocks (connLog cfg es))[ms.length]? = some (head, l) → (s, v, w) ∈ calls l →
      ∃ texts, PathTexts e (fs.lookup "path".toList) texts ∧
        s.reg ∈ table cfg ∧ s.method = m ∧ Matches s.entry (landing texts) ∧
          ¬ Shadowed (table cfg) s.entry (landing texts) := by
  let := serverWire
  intro harr hw head l s v w hb hc
  obtain ⟨hj, -, -⟩ := block_call hb hc
  obtain ⟨_, _, _, hhead, -, -, -⟩ := block_message hms _ harr hw hb hc
  obtain ⟨texts, h1, h2⟩ := C112_reached cfg m e fs hd body r h more _ head (limitHead_done.1 hhead).1
  exact ⟨texts, h1, h2 s v hj⟩

end
end Htrpc
