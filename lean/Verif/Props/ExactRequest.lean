/-
Exactly which paths and which requests arrive (C108).
-/
import Verif.Spec.Exact
import Verif.Props.Exact
import Verif.Props.IntegrityRequest
import Mathlib.Data.List.Nodup
import Mathlib.Data.List.Perm.Subperm

namespace Htrpc
open Spec

section
variable [LawfulFloatText]

/-- An argument that is read from its segment is plain, ASCII and not a dot segment. -/
theorem plainArg_of_segment {v : Val} {s g : Str} (h : SentAs v s) {t : Ty} (ht : HasTy v t)
    (hg : g = if Dots s then [] else encodeSegment s) (hn : ¬ NaNField v)
    (hw : readSegment t g = some v) : PlainArg v s ∧ Ascii s ∧ NoTabNl s ∧ ¬ Dots s := by
  induction h generalizing t with
  | bool b =>
    cases ht
    cases b
    · have := harmless (s := "false".toList) (by decide) ⟨'f', by decide⟩
      exact ⟨.false, this.1, this.2.1, this.2.2.2⟩
    · obtain ⟨h1, h2, -, h4⟩ := harmless (s := "ture".toList) (by decide) ⟨'t', by decide⟩
      rw [if_pos rfl] at hg
      rw [hg, if_neg h4, readSegment_eq, percentDecode_ascii h1 h2] at hw
      cases hw
  | int ty i =>
    have := harmless (fun c hc => (showInt_chars hc).imp_right .inl) (showInt_some_digit i)
    exact ⟨.int _ _, this.1, this.2.1, this.2.2.2⟩
  | f32 x =>
    have := harmless (LawfulFloatText.show64_alnum (FloatText.widen x))
      (LawfulFloatText.show64_some_alnum _)
    refine ⟨.f32 x ?_, this.1, this.2.1, this.2.2.2⟩
    cases h : isNaN32 x with
    | false => rfl
    | true => exact absurd (.f32 h) hn
  | f64 x =>
    have := harmless (LawfulFloatText.show64_alnum x) (LawfulFloatText.show64_some_alnum _)
    refine ⟨.f64 x ?_, this.1, this.2.1, this.2.2.2⟩
    cases h : isNaN64 x with
    | false => rfl
    | true => exact absurd (.f64 h) hn
  | char => cases ht; rw [readSegment_eq] at hw; cases hp : percentDecode g <;> rw [hp] at hw <;> cases hw
  | str s =>
    cases ht
    by_cases hd : Dots s
    · rw [if_pos hd] at hg
      subst hg
      cases hw
      exact absurd hd not_dots_nil
    · rw [hg, if_neg hd, readSegment_eq, percentDecode_encodeSegment] at hw
      have he : latin1 (utf8 (strip s)) = s := by
        have := Option.some.inj hw
        exact Val.str.inj this
      obtain ⟨h1, h2⟩ := (latin1_utf8_eq_iff s).1 he
      exact ⟨.str s, h1, h2, hd⟩
  | unitVariant =>
    cases ht; rw [readSegment_eq] at hw; cases hp : percentDecode g <;> rw [hp] at hw <;> cases hw
  | newtypeStruct _ ih =>
    cases ht with
    | newtypeStruct ht =>
      rw [readSegment_eq] at hw
      obtain ⟨x, hx, hr⟩ := Option.bind_eq_some_iff.1 hw
      rw [readArg] at hr
      obtain ⟨y, hy, he⟩ := Option.map_eq_some_iff.1 hr
      cases he
      obtain ⟨h1, h2⟩ := ih ht hg (fun h => hn (.newtypeStruct h)) (by rw [readSegment_eq, hx]; exact hy)
      exact ⟨.newtype h1, h2⟩
  | newtypeVariant =>
    cases ht; rw [readSegment_eq] at hw; cases hp : percentDecode g <;> rw [hp] at hw <;> cases hw

theorem plainArgs_of_segments {vs : List Val} {ss : List Str} (hs : SentAll vs ss) {ts : List Ty}
    (ht : HasTys vs ts) {segs : List Str}
    (hg : Pairs (fun g s => g = if Dots s then [] else encodeSegment s) segs ss)
    (hn : ∀ w ∈ vs, ¬ NaNField w) (hw : readSegments ts segs = some vs) :
    PlainArgs vs ss ∧ ∀ s ∈ ss, Ascii s ∧ NoTabNl s ∧ ¬ Dots s := by
  induction hs generalizing ts segs with
  | nil => exact ⟨.nil, by simp⟩
  | cons hv _ ih =>
    cases ht with
    | cons ht hts =>
      cases hg with
      | cons hg hgs =>
        rw [readSegments] at hw
        split at hw
        · rename_i h1 h2
          cases hw
          obtain ⟨a, b⟩ := plainArg_of_segment hv ht hg (hn _ (List.mem_cons_self ..)) h1
          obtain ⟨c, d⟩ := ih hts hgs (fun w hw => hn w (List.mem_cons_of_mem _ hw)) h2
          refine ⟨.cons a c, fun s hs => ?_⟩
          rcases List.mem_cons.1 hs with rfl | hs
          · exact b
          · exact d s hs
        · cases hw

/-- A path that arrives is a tuple, a tuple struct or a newtype of these. -/
theorem argTuple_of_read {v : Val} {vs : List Val} (hv : PathArgs v vs) {ss : List Str}
    (hs : SentAll vs ss) {t : Ty} (ht : HasTy v t) {segs : List Str}
    (hg : Pairs (fun g s => g = if Dots s then [] else encodeSegment s) segs ss)
    (hn : ¬ HasNaN v) (hw : readPath t segs = some v) :
    ArgTuple v vs ∧ PlainArgs vs ss ∧ ∀ s ∈ ss, Ascii s ∧ NoTabNl s ∧ ¬ Dots s := by
  have hlen : segs.length = vs.length := by
    rw [hg.length, (PathSer.writes_of_sent hs).length]
  induction hv generalizing t with
  | unit =>
    cases ht
    rw [readPath, readPath_none fun _ => rfl] at hw <;> first | cases hw | simp
  | unitStruct =>
    cases ht
    rw [readPath, readPath_none fun _ => rfl] at hw <;> first | cases hw | simp
  | tuple vs =>
    cases ht with
    | tuple ht =>
      rw [readPath, List.take_of_length_le (by rw [hlen, HasTys_length ht]; exact Nat.le_refl _)] at hw
      obtain ⟨ws, hr, he⟩ := Option.map_eq_some_iff.1 hw
      cases he
      exact ⟨.tuple _, plainArgs_of_segments hs ht hg (fun w hw h => hn (.tuple hw (.here h))) hr⟩
  | tupleStruct vs =>
    cases ht with
    | tupleStruct ht =>
      rw [readPath, List.take_of_length_le (by rw [hlen, HasTys_length ht]; exact Nat.le_refl _)] at hw
      obtain ⟨ws, hr, he⟩ := Option.map_eq_some_iff.1 hw
      cases he
      exact ⟨.tupleStruct _,
        plainArgs_of_segments hs ht hg (fun w hw h => hn (.tupleStruct hw (.here h))) hr⟩
  | tupleVariant =>
    cases ht
    rw [readPath, readPath_none fun _ => rfl] at hw <;> first | cases hw | simp
  | newtypeStruct _ ih =>
    cases ht with
    | newtypeStruct ht =>
      rw [readPath] at hw
      obtain ⟨x, hr, he⟩ := Option.map_eq_some_iff.1 hw
      cases he
      obtain ⟨h1, h2⟩ := ih hs ht (fun h => hn (.newtypeStruct h)) hr hlen
      exact ⟨.newtype h1, h2⟩
  | newtypeVariant =>
    cases ht
    rw [readPath, readPath_none fun _ => rfl] at hw <;> first | cases hw | simp

omit [LawfulFloatText] in
/-- Constants that are found again are not dot segments. -/
theorem const_not_dots {e : EntryPoint} {segs : List Str} (hm : Matches e segs) {ss : List Str}
    (hp : Pairs (fun g s => g = if Dots s then [] else encodeSegment s) segs (instantiate e ss))
    (hc : ss.length = varCount e) (hd : ∀ s ∈ ss, ¬ Dots s) : ∀ s ∈ instantiate e ss, ¬ Dots s := by
  induction hm generalizing ss with
  | nil => simp [instantiate]
  | @cons s e p ps hs _ ih =>
    cases s with
    | val c =>
      cases hp with
      | cons h1 h2 =>
        intro x hx
        rcases List.mem_cons.1 hx with rfl | hx
        · intro hd'
          rw [if_pos hd'] at h1
          have : x = p := hs
          rw [h1] at this
          rw [this] at hd'
          exact not_dots_nil hd'
        · exact ih h2 (by simpa [varCount] using hc) hd x hx
    | var =>
      cases ss with
      | nil => simp [varCount] at hc
      | cons a ss =>
        cases hp with
        | cons h1 h2 =>
          intro x hx
          rcases List.mem_cons.1 hx with rfl | hx
          · exact hd _ (List.mem_cons_self ..)
          · exact ih h2 (by simpa [varCount] using hc) (fun s hs => hd s (List.mem_cons_of_mem _ hs)) x hx

omit [LawfulFloatText] in
/-- A path that matches, without dot segments, is one that a URL can carry. -/
theorem carried_of_matches {e : EntryPoint} {segs ss : List Str} (hm : Matches e segs)
    (hg : pathSegments ((instantiate e ss).foldl pushSegment ['/']) = some segs)
    (hp : Pairs (fun g s => g = if Dots s then [] else encodeSegment s) segs (instantiate e ss))
    (hc : ss.length = varCount e) (hd : ∀ s ∈ ss, ¬ Dots s) : Carried (instantiate e ss) := by
  have hnd := const_not_dots hm hp hc hd
  obtain ⟨segs', h1, h2⟩ := shape_iff (instantiate e ss)
  rw [hg] at h1
  cases h1
  refine h2.1 ?_
  clear h2 hg hm
  generalize instantiate e ss = L at hp hnd
  induction hp with
  | nil => rfl
  | cons h _ ih =>
    rw [if_neg (hnd _ (List.mem_cons_self ..))] at h
    rw [List.map_cons, List.map_cons, ih fun s hs => hnd s (List.mem_cons_of_mem _ hs), h,
      pctDecode_encodeSegment]

/-- **C108.** Exactly which paths arrive: whatever value without NaN is sent as a path, with any query
behind it, the server finds a path that matches the entry point and the procedure gets the same value if
and only if it is a tuple of plain arguments in ASCII without tabs and line breaks, and the path is one
that a URL can carry. -/
theorem C108_path (o : UrlOracle) (e : EntryPoint) (hpc : PlainConsts e) (v : Val) (t : Ty)
    (ht : HasTy v t) (hn : ¬ HasNaN v) (path : Str)
    (hs : serPath e ['/'] v = .ok path) (query : Option Str)
    (hq : ∀ q ∈ query, ∀ c ∈ q, QueryChar c) :
    ∃ segs, parseTarget o (joinTarget path query) = some ⟨some segs, query⟩ ∧
      (Matches e segs ∧ dePath e t (some segs) = .ok v ↔
        PathIntact e (some v) (some t)) := by
  by_cases hx : ∃ vs ss, PathArgs v vs ∧ SentAll vs ss ∧ vs.length = varCount e
  · obtain ⟨vs, ss, hv, hss, hl⟩ := hx
    rw [(C69_path e ['/'] v).1 vs ss hv hss hl] at hs
    cases hs
    obtain ⟨segs, h1, h2, h3⟩ := parseTarget_pushed o (instantiate e ss) query hq
    have hlen : ss.length = varCount e := by rw [← hl, (PathSer.writes_of_sent hss).length]
    refine ⟨segs, h2, ?_, ?_⟩
    · rintro ⟨hm, hw⟩
      have hall := h3 (by rw [instantiate_length, matches_length hm])
      have hp := variables_pairs hm hlen hall
      rw [C63_path_read e segs hm] at hw
      cases hr : readPath t (Spec.«variables» e segs) with
      | none => rw [hr] at hw; cases hw
      | some x =>
        rw [hr] at hw
        cases hw
        obtain ⟨k1, k2, k3⟩ := argTuple_of_read hv hss ht hp hn hr
        exact ⟨ss, .args k1 ht k2 (varCount_eq_countP e ▸ hl) (fun s hs => (k3 s hs).1) (fun s hs => (k3 s hs).2.1),
          carried_of_matches hm h1 hall hlen fun s hs => (k3 s hs).2.2⟩
    · rintro ⟨ss', hpp, hc⟩
      cases hpp with
      | @args _ vs' _ _ k1 _ k2 k3 k4 k5 =>
        have hw := serPath_tuple k1 (PathSer.writes_of_plain k2) e ['/']
        have hl' : varCount e = ss'.length := by
          rw [← (PathSer.writes_of_plain k2).length, varCount_eq_countP]; exact k3.symm
        rw [(C69_path e ['/'] v).1 vs ss hv hss hl, if_pos hl'] at hw
        have hw := Res.ok.inj hw
        have h4 := parseTarget_push o hc query hq
        rw [← hw, h2] at h4
        have h5 : segs = (instantiate e ss').map encodeSegment := by
          have := Option.some.inj h4
          injection this with h _
          exact Option.some.inj h
        subst h5
        exact ⟨matches_instantiate hpc ss', dePath_tuple k1 ht k2 k4 k5 hl' hpc⟩
  · rw [(C69_path e ['/'] v).2 hx] at hs
    cases hs

/-! ### Queries -/

omit [LawfulFloatText] in
theorem same_eq {v w : Val} (h : Same v w) (hn : ¬ HasNaN v) : v = w := by
  induction h with
  | refl => rfl
  | nan32 h => exact absurd (.here (.f32 h)) hn
  | nan64 h => exact absurd (.here (.f64 h)) hn
  | some _ ih => rw [ih fun h => hn (.some h)]
  | newtypeStruct _ ih => rw [ih fun h => hn (.newtypeStruct h)]

omit [LawfulFloatText] in
theorem arrive_length {kvs es : List (Val × Val)} (h : EntriesArrive kvs es) :
    es.length ≤ kvs.length := by
  induction h with
  | nil => exact Nat.le_refl _
  | lost _ _ ih => exact Nat.le_succ_of_le ih
  | same _ _ _ ih => exact Nat.succ_le_succ ih

omit [LawfulFloatText] in
/-- If no entry is lost, then all arrive as they are. -/
theorem arrive_all {kvs es : List (Val × Val)} (h : EntriesArrive kvs es)
    (hn : ¬ HasNaN (.map kvs)) (hl : kvs.length ≤ es.length) : es = kvs := by
  induction h with
  | nil => rfl
  | lost _ h _ => exact absurd (arrive_length h) (by simpa using Nat.not_le.2 hl)
  | @same k v k' v' kvs es h1 h2 _ ih =>
    rw [ih ?_ (Nat.le_of_succ_le_succ hl), same_eq h1 fun h => hn (.key (List.mem_cons_self ..) h),
      same_eq h2 fun h => hn (.value (List.mem_cons_self ..) h)]
    intro h
    generalize he : Val.map kvs = m at h
    cases h with
    | here h => subst he; cases h
    | key hm h => cases he; exact hn (.key (List.mem_cons_of_mem _ hm) h)
    | value hm h => cases he; exact hn (.value (List.mem_cons_of_mem _ hm) h)
    | _ => cases he

omit [LawfulFloatText] in
/-- The map of a list of entries is not longer. -/
theorem mapOf_length {es m : List (Val × Val)} (h : MapOf es m) : m.length ≤ es.length := by
  have hnd : m.Nodup := by
    have := h.1
    unfold DistinctKeys at this
    exact List.Nodup.of_map _ this
  refine (hnd.subperm fun x hx => ?_).length_le
  obtain ⟨a, b⟩ := x
  obtain ⟨pre, post, rfl, -⟩ := (h.2 a b).1 hx
  simp

theorem mapTexts_of_read {kvs : List (Val × Val)} {ps : List (Str × Str)}
    (h : MapEntries SentOpt kvs ps) {k v : Ty} (ht : HasTyMap kvs k v)
    (hn : ∀ a b, (a, b) ∈ kvs → ¬ NaNField a ∧ ¬ NaNField b)
    (he : readEntries readText k v ps = some kvs) : MapTexts kvs ps := by
  have hlen : ∀ (kvs es : List (Val × Val)) (ps : List (Str × Str)), MapEntries SentOpt kvs ps →
      readEntries readText k v ps = some es → es.length ≤ kvs.length := by
    intro kvs es ps h he
    induction h generalizing es with
    | nil => cases he; exact Nat.le_refl _
    | absent _ _ _ ih => exact Nat.le_succ_of_le (ih es he)
    | present _ _ _ ih =>
      rw [readEntries] at he
      split at he
      · rename_i h3
        cases he
        exact Nat.succ_le_succ (ih _ h3)
      · cases he
  induction h with
  | nil => exact .nil
  | absent _ _ h _ => exact absurd (hlen _ _ _ h he) (by simp)
  | present ha hb _ ih =>
    cases ht with
    | cons t1 t2 t3 =>
      rw [readEntries] at he
      split at he
      · rename_i a b m h1 h2 h3
        cases he
        obtain ⟨n1, n2⟩ := hn _ _ (List.mem_cons_self ..)
        exact .cons (plainOpt_of_read ha t1 h1 n1) (plainOpt_of_read hb t2 h2 n2)
          (ih t3 (fun a b h => hn a b (List.mem_cons_of_mem _ h)) h3)
      · cases he

/-- **C108.** Exactly which queries arrive: whatever value without NaN is sent as a query, it is
received unchanged if and only if it is a struct all of whose fields are plain or `None`, a map with
distinct plain keys and plain values, or one of these inside of `Some` and newtypes. -/
theorem C108_query (v : Val) (t : Ty) (ht : HasTy v t) (hd : (names t).Nodup) (hn : ¬ HasNaN v)
    (q : Str) (hs : serQuery v = .ok q) : deQuery t (some q) = .ok v ↔ QueryIntact v := by
  have h := serQuery_written hs
  generalize hq : formParse q = ps at h
  induction h generalizing t with
  | single h =>
    constructor
    · intro hw
      unfold deQuery at hw
      rw [Option.getD_some, hq, QueryDe.de_single h ht] at hw
      cases hw
    · intro hi
      clear hs hd hn hq ht
      exfalso
      induction h with
      | sent h =>
        induction h with
        | newtypeStruct _ ih => cases hi with | newtypeStruct hi => exact ih hi
        | _ => cases hi
      | some _ ih => cases hi with | some hi => exact ih hi
      | newtypeStruct _ ih => cases hi with | newtypeStruct hi => exact ih hi
      | newtypeVariant => cases hi
  | @struct fs es h =>
    cases ht with
    | @struct _ ts ht =>
      rw [C12_arrives_iff fs ts ht hd (fun n v hm h => hn (.struct hm (.here h))) q hs]
      constructor
      · rintro ⟨ps, h⟩
        exact .struct h
      · intro h
        cases h with
        | struct h => exact ⟨_, h⟩
  | structVariant h =>
    constructor
    · intro hw; cases ht; cases hw
    · intro h; cases h
  | @map kvs es h =>
    cases ht with
    | @map _ a b ht =>
      constructor
      · intro hw
        rw [deQuery_entries, Option.getD_some, hq] at hw
        cases hr : readEntries readText a b es with
        | none => rw [hr] at hw; cases hw
        | some xs =>
          rw [hr] at hw
          have hm := insertAll_mapOf xs
          rw [Val.map.inj (Res.ok.inj hw)] at hm
          have := arrive_all (readEntries_arrive h ht hr) hn (mapOf_length hm)
          subst this
          exact .map (mapTexts_of_read h ht (fun k w hm =>
            ⟨fun h => hn (.key hm (.here h)), fun h => hn (.value hm (.here h))⟩) hr) hm.1
      · intro hi
        cases hi with
        | map hi hk =>
          have := serQuery_map hi
          rw [hs] at this
          cases this
          exact deQuery_map hi ht hk (by simp [formParse_formText])
  | some _ ih =>
    cases ht with
    | some ht =>
      rw [deQuery_option]
      have ih := ih _ ht hd (fun h => hn (.some h)) hs hq
      constructor
      · intro hw
        obtain ⟨x, hx, hw⟩ := Res.bind_ok_eq hw
        cases hw
        exact .some (ih.1 hx)
      · intro hi
        cases hi with
        | some hi => rw [ih.2 hi]; rfl
  | newtypeStruct _ ih =>
    cases ht with
    | newtypeStruct ht =>
      rw [deQuery_newtype]
      have ih := ih _ ht hd (fun h => hn (.newtypeStruct h)) hs hq
      constructor
      · intro hw
        obtain ⟨x, hx, hw⟩ := Res.bind_ok_eq hw
        cases hw
        exact .newtypeStruct (ih.1 hx)
      · intro hi
        cases hi with
        | newtypeStruct hi => rw [ih.2 hi]; rfl
  | newtypeVariant =>
    constructor
    · intro hw; cases ht; cases hw
    · intro h; cases h

/-! ### Headers -/

omit [LawfulFloatText] in
/-- Fields that are as wanted become the same entries. -/
theorem fieldEntries_imp {β : Type} {present present' : Val → β → Prop} {absent absent' : Val → Prop}
    {fs : List (Str × Val)} {es : List (Str × β)} (h : FieldEntries present absent fs es)
    (ha : ∀ n v, (n, v) ∈ fs → absent v → absent' v)
    (hp : ∀ n v x, (n, v) ∈ fs → (n, x) ∈ es → present v x → present' v x) :
    FieldEntries present' absent' fs es := by
  induction h with
  | nil => exact .nil
  | absent h _ ih =>
    exact .absent (ha _ _ (List.mem_cons_self ..) h) (ih
      (fun n v hm => ha n v (List.mem_cons_of_mem _ hm))
      fun n v x h1 h2 => hp n v x (List.mem_cons_of_mem _ h1) h2)
  | present h _ ih =>
    exact .present (hp _ _ _ (List.mem_cons_self ..) (List.mem_cons_self ..) h) (ih
      (fun n v hm => ha n v (List.mem_cons_of_mem _ hm))
      fun n v x h1 h2 => hp n v x (List.mem_cons_of_mem _ h1) (List.mem_cons_of_mem _ h2))

/-- Headers that come from a struct, read as the same struct. -/
theorem headers_struct_iff {fs : List (Str × Val)} {ts : List (Str × Ty)} (ht : HasTyFields fs ts)
    (hd : ((ts.map Prod.fst).map lowerText).Nodup) (hn : ∀ n v, (n, v) ∈ fs → ¬ NaNField v)
    {es : List (Str × Bytes)} (h : SentHeaders fs es) {hs : List Header} (ha : AsciiNames hs)
    (ho : askedFor (.struct ts) hs = headersOf es) :
    deHeaders (.struct ts) hs = .ok (.struct fs) ↔ HeaderIntact (.struct fs) := by
  have hnames : names (.struct ts) = fs.map Prod.fst := (HasTyFields_names ht).symm
  unfold askedFor at ho
  rw [hnames] at ho
  rw [← HasTyFields_names ht] at hd
  have hdf : DistinctNames fs := nodup_of_map hd
  have hdt : DistinctNames ts := by
    unfold DistinctNames; rw [← HasTyFields_names ht]; exact hdf
  have lower : ∀ n v, (n, v) ∈ fs → LowerName n →
      (entries hs).filter (fun e => decide (e.1 = n)) = es.filter (fun e => decide (e.1 = n)) :=
    fun n v hm hl => own_entries h hd ha ho hm hl
  have upper : ∀ n, ¬ LowerName n → (entries hs).filter (fun e => decide (e.1 = n)) = [] := by
    intro n hl
    refine filter_name_nil fun hdecl => hl ?_
    obtain ⟨e, he, rfl⟩ := List.mem_map.1 hdecl
    obtain ⟨x, hx, rfl⟩ := List.mem_map.1 he
    exact lowerName_nameText (ha x hx)
  rw [deHeaders_struct hdt ha]
  constructor
  · intro hw
    cases hr : readStruct readBytes ts (entries hs) with
    | none => rw [hr] at hw; cases hw
    | some u =>
      rw [hr] at hw
      cases hw
      obtain ⟨fs', hc, he⟩ := Option.map_eq_some_iff.1 hr
      cases he
      have hval : ∀ n v, (n, v) ∈ fs →
          ∃ t, HasTy v t ∧ fieldValue readBytes (entries hs) n t = some v := by
        intro n v hm
        obtain ⟨t, ht1, ht2⟩ := HasTyFields_type ht hm
        obtain ⟨w, h1, h2⟩ := mem_collect hc ht1
        have : w = v := by
          have h3 := lookup_of_mem hdf h2
          rw [lookup_of_mem hdf hm] at h3
          exact (Option.some.inj h3).symm
        exact ⟨t, ht2, this ▸ h1⟩
      have none_of : ∀ n v, (n, v) ∈ fs →
          (entries hs).filter (fun e => decide (e.1 = n)) = [] → v = .none := by
        intro n v hm hf
        obtain ⟨t, -, hv⟩ := hval n v hm
        simp only [fieldValue, hf] at hv
        split at hv
        · cases hv; rfl
        · cases hv
      have hup : ∀ f ∈ fs, LowerName f.1 ∨ f.2 = .none := by
        intro f hf
        by_cases hl : LowerName f.1
        · exact .inl hl
        · exact .inr (none_of f.1 f.2 hf (upper f.1 hl))
      refine .struct (es := es) (fieldEntries_imp h (fun n v hm hom => ?_) fun n v x hm hx hs' => ?_) hup
      · rcases hup _ hm with hl | hl
        · rcases FieldEntries_filter h hdf hm with ⟨-, hf⟩ | ⟨x, hp, -⟩
          · exact none_of n v hm (by rw [lower n v hm hl, hf])
          · exact absurd hom (sentHeader_not_omitted hp)
        · exact hl
      · rcases hup _ hm with hl | hl
        · obtain ⟨t, htv, hv⟩ := hval n v hm
          rcases FieldEntries_filter h hdf hm with ⟨ho, -⟩ | ⟨y, -, hf⟩
          · exact absurd ho (sentHeader_not_omitted hs')
          · have hm' : (n, x) ∈ es.filter (fun e => decide (e.1 = n)) :=
              List.mem_filter.2 ⟨hx, by simp⟩
            rw [hf] at hm'
            cases List.mem_singleton.1 hm'
            simp only [fieldValue, lower n v hm hl, hf] at hv
            exact plainHeader_of_read hs' htv hv (hn n v hm)
        · have hl : v = .none := hl
          subst hl
          exact absurd .none (sentHeader_not_omitted hs')
  · intro hi
    cases hi with
    | @struct _ es' hf hup =>
      have hes : headersOf es' = headersOf es := by
        have h1 := serHeaders_struct (Spec.HeaderFields.sent hf) []
        have h2 := serHeaders_struct h []
        rw [h1] at h2
        exact List.append_cancel_left (Res.ok.inj h2)
      have this {n : Str} {v : Val} (hm : (n, v) ∈ fs) (hl : LowerName n) :=
        own_entries (Spec.HeaderFields.sent hf) hd ha (ho.trans hes.symm) hm hl
      rw [readStruct, collect_of_fields ht]
      · rfl
      intro n v t hm _ hvt
      by_cases hl : LowerName n
      · rcases FieldEntries_filter hf hdf hm with ⟨rfl, hf⟩ | ⟨x, hx, hf⟩
        · simp only [fieldValue, this hm hl, hf]
          cases hvt
          rfl
        · simp only [fieldValue, this hm hl, hf]
          exact readBytes_of_plainHeader hx hvt
      · have hv : v = .none := (hup _ hm).resolve_left hl
        subst hv
        simp only [fieldValue, upper n hl]
        cases hvt
        rfl

/-- **C108.** Exactly which headers arrive: whatever value without NaN is sent as headers with a struct
type, it is received unchanged, among any headers with other names, if and only if its fields are plain
or `None`, and `None` if their names are not in lower case. -/
theorem C108_headers (v : Val) (t : Ty) (ht : HasTy v t) (hst : isStruct t = true)
    (hd : ((names t).map lowerText).Nodup) (hn : ¬ HasNaN v) (before own : List Header)
    (hs : serHeaders before v = .ok (before ++ own)) (hs' : List Header) (ha : AsciiNames hs')
    (ho : askedFor t hs' = own) : deHeaders t hs' = .ok v ↔ HeaderIntact v := by
  obtain ⟨own', h1, h⟩ := serHeaders_written hs
  rw [← List.append_cancel_left h1] at h
  clear hs h1 own'
  induction h generalizing t with
  | single h =>
    exfalso
    clear ho hd hn
    induction h generalizing t with
    | sent h =>
      induction h generalizing t with
      | newtypeStruct _ ih => cases ht with | newtypeStruct ht => exact ih _ ht hst
      | _ => cases ht; cases hst
    | some _ ih => cases ht with | some ht => exact ih _ ht hst
    | newtypeStruct _ ih => cases ht with | newtypeStruct ht => exact ih _ ht hst
    | _ => cases ht; cases hst
  | @struct fs es h =>
    cases ht with
    | @struct _ ts ht =>
      exact headers_struct_iff ht hd (fun n v hm h => hn (.struct hm (.here h))) h ha ho
  | structVariant h => cases ht; cases hst
  | map h => cases ht; cases hst
  | some _ ih =>
    cases ht with
    | some ht =>
      rw [deHeaders_option]
      have ih := ih _ ht hst hd (fun h => hn (.some h)) ho
      constructor
      · intro hw
        obtain ⟨x, hx, hw⟩ := Res.bind_ok_eq hw
        cases hw
        exact .some (ih.1 hx)
      · intro hi
        cases hi with
        | some hi => rw [ih.2 hi]; rfl
  | newtypeStruct _ ih =>
    cases ht with
    | newtypeStruct ht =>
      rw [deHeaders_newtype]
      have ih := ih _ ht hst hd (fun h => hn (.newtypeStruct h)) ho
      constructor
      · intro hw
        obtain ⟨x, hx, hw⟩ := Res.bind_ok_eq hw
        cases hw
        exact .newtypeStruct (ih.1 hx)
      · intro hi
        cases hi with
        | newtypeStruct hi => rw [ih.2 hi]; rfl
  | newtypeVariant => cases ht; cases hst

/-- The header part of a message, which is followed by the length of the body. -/
theorem header_part_iff {v : Val} {t : Ty} (hvt : HasTy v t) (hst : isStruct t = true)
    (hnd : ((names t).map lowerText).Nodup)
    (hcl : "content-length".toList ∉ (names t).map lowerText) (hn : ¬ HasNaN v) (body : Bytes)
    {own : List Header} (hown : serHeaders [] v = .ok ([] ++ own)) (hr : AsciiNames own)
    {hs : List Header} (ha : AsciiNames hs) (ho : askedFor t hs =
      askedFor t (own ++ [(utf8 "Content-Length".toList, utf8 (showNat body.length))])) :
    deHeaders t hs = .ok v ↔ HeaderIntact v := by
  obtain ⟨own', he, hwr⟩ := serHeaders_written hown
  rw [← List.append_cancel_left he] at hwr
  have hself := askedFor_own hwr hvt hst hr
  have hsame : askedFor t (own ++ [(utf8 "Content-Length".toList,
      utf8 (showNat body.length))]) = own := by
    have hne : nameText (utf8 "Content-Length".toList) ∉ (names t).map lowerText := hcl
    unfold askedFor at hself ⊢
    rw [List.filter_append, hself, List.filter_cons_of_neg (by simpa using hne),
      List.filter_nil, List.append_nil]
  exact C108_headers v t hvt hst hnd hn [] own hown hs ha (ho.trans hsame)

/-! ### Requests -/

omit [LawfulFloatText] in
theorem requestFields_inj {α : Type} {p q h p' q' h' : Option α}
    (he : requestFields p q h = requestFields p' q' h') : p = p' ∧ q = q' ∧ h = h' := by
  have l1 : ∀ p q h : Option α, (requestFields p q h).lookup "path".toList = p := by
    intro p q h; cases p <;> cases q <;> cases h <;> rfl
  have l2 : ∀ p q h : Option α, (requestFields p q h).lookup "query".toList = q := by
    intro p q h; cases p <;> cases q <;> cases h <;> rfl
  have l3 : ∀ p q h : Option α, (requestFields p q h).lookup "header".toList = h := by
    intro p q h; cases p <;> cases q <;> cases h <;> rfl
  exact ⟨by rw [← l1 p q h, he, l1], by rw [← l2 p q h, he, l2], by rw [← l3 p q h, he, l3]⟩

/-- What the server has read, part by part. -/
theorem deRequest_gives {e : EntryPoint} {segs : List Str} {query : Option Str} {hs : List Header}
    {p q h : Option Val} {tp tq th : Option Ty}
    (hd : deRequest e (.struct (requestFields tp tq th)) ⟨some segs, query⟩ hs =
        .ok (.struct (requestFields p q h))) :
    (∀ v t, p = some v → tp = some t → dePath e t (some segs) = .ok v) ∧
      (∀ v t, q = some v → tq = some t → deQuery t query = .ok v) ∧
      (∀ v t, h = some v → th = some t → deHeaders t hs = .ok v) := by
  have l1 : (requestFields tp tq th).lookup "path".toList = tp := by
    cases tp <;> cases tq <;> cases th <;> rfl
  have l2 : (requestFields tp tq th).lookup "query".toList = tq := by
    cases tp <;> cases tq <;> cases th <;> rfl
  have l3 : (requestFields tp tq th).lookup "header".toList = th := by
    cases tp <;> cases tq <;> cases th <;> rfl
  rw [deRequest, reqDe_struct] at hd
  revert hd
  intro hw
  obtain ⟨a, ha, hw⟩ := Res.bind_ok_eq hw
  obtain ⟨b, hb, hw⟩ := Res.bind_ok_eq hw
  obtain ⟨c, hc, hw⟩ := Res.bind_ok_eq hw
  obtain ⟨vs, hvs, hok⟩ := Res.bind_ok_eq hw
  obtain ⟨p', rfl, hp'⟩ := readPart_ok ha
  obtain ⟨q', rfl, hq'⟩ := readPart_ok hb
  obtain ⟨h', rfl, hh'⟩ := readPart_ok hc
  clear ha hb hc
  rw [l1] at hp'
  rw [l2] at hq'
  rw [l3] at hh'
  have he : vs = requestFields p' q' h' := by
    rcases hp' with ⟨rfl, rfl⟩ | ⟨_, _, rfl, rfl, -⟩ <;>
      rcases hq' with ⟨rfl, rfl⟩ | ⟨_, _, rfl, rfl, -⟩ <;>
      rcases hh' with ⟨rfl, rfl⟩ | ⟨_, _, rfl, rfl, -⟩ <;> cases hvs <;> rfl
  rw [he] at hok
  obtain ⟨rfl, rfl, rfl⟩ := requestFields_inj (Val.struct.inj (Res.ok.inj hok))
  refine ⟨fun v t h1 h2 => ?_, fun v t h1 h2 => ?_, fun v t h1 h2 => ?_⟩
  · rcases hp' with ⟨h, -⟩ | ⟨_, _, h, h', hr⟩
    · rw [h] at h2; cases h2
    · rw [h] at h2; rw [h'] at h1; cases h1; cases h2; exact hr
  · rcases hq' with ⟨h, -⟩ | ⟨_, _, h, h', hr⟩
    · rw [h] at h2; cases h2
    · rw [h] at h2; rw [h'] at h1; cases h1; cases h2; exact hr
  · rcases hh' with ⟨h, -⟩ | ⟨_, _, h, h', hr⟩
    · rw [h] at h2; cases h2
    · rw [h] at h2; rw [h'] at h1; cases h1; cases h2; exact hr

/-- What the server makes of the three parts. -/
theorem deRequest_parts {e : EntryPoint} {segs : List Str} {query : Option Str} {hs : List Header}
    {p q h : Option Val} {tp tq th : Option Ty}
    (hp : (p = none ∧ tp = none) ∨ ∃ v t, p = some v ∧ tp = some t)
    (hq : (q = none ∧ tq = none) ∨ ∃ v t, q = some v ∧ tq = some t)
    (hh : (h = none ∧ th = none) ∨ ∃ v t, h = some v ∧ th = some t) (hne : hs ≠ []) :
    deRequest e (.struct (requestFields tp tq th)) ⟨some segs, query⟩ hs =
        .ok (.struct (requestFields p q h)) ↔
      (∀ v t, p = some v → tp = some t → dePath e t (some segs) = .ok v) ∧
      (∀ v t, q = some v → tq = some t → deQuery t query = .ok v) ∧
      (∀ v t, h = some v → th = some t → deHeaders t hs = .ok v) := by
  have l1 : (requestFields tp tq th).lookup "path".toList = tp := by
    cases tp <;> cases tq <;> cases th <;> rfl
  have l2 : (requestFields tp tq th).lookup "query".toList = tq := by
    cases tp <;> cases tq <;> cases th <;> rfl
  have l3 : (requestFields tp tq th).lookup "header".toList = th := by
    cases tp <;> cases tq <;> cases th <;> rfl
  refine ⟨deRequest_gives, ?_⟩
  rw [deRequest, reqDe_struct]
  rintro ⟨k1, k2, k3⟩
  rw [readPart_opt l1 (v := p)]
  · simp only [Res.bind_ok]
    rw [readPart_opt l2 (v := q)]
    · simp only [Res.bind_ok]
      rw [readPart_opt l3 (v := h)]
      · simp only [Res.bind_ok]
        have ha : assemble ([] ++ optField "path".toList p ++ optField "query".toList q ++
            optField "header".toList h) (requestFields tp tq th) =
            .ok (requestFields p q h) := by
          rcases hp with ⟨rfl, rfl⟩ | ⟨_, _, rfl, rfl⟩ <;>
            rcases hq with ⟨rfl, rfl⟩ | ⟨_, _, rfl, rfl⟩ <;>
            rcases hh with ⟨rfl, rfl⟩ | ⟨_, _, rfl, rfl⟩ <;> rfl
        rw [ha]; rfl
      · rcases hh with ⟨rfl, rfl⟩ | ⟨v, t, rfl, rfl⟩
        · exact .inl ⟨rfl, rfl, ignoreHeaders_ok hne⟩
        · exact .inr ⟨t, v, rfl, rfl, k3 v t rfl rfl⟩
    · rcases hq with ⟨rfl, rfl⟩ | ⟨v, t, rfl, rfl⟩
      · exact .inl ⟨rfl, rfl, rfl⟩
      · exact .inr ⟨t, v, rfl, rfl, k2 v t rfl rfl⟩
  · rcases hp with ⟨rfl, rfl⟩ | ⟨v, t, rfl, rfl⟩
    · exact .inl ⟨rfl, rfl, rfl⟩
    · exact .inr ⟨t, v, rfl, rfl, k1 v t rfl rfl⟩

/-- C108 for structs. -/
theorem struct_intact (o : UrlOracle) (m : Method) (e : EntryPoint) (hpc : PlainConsts e)
    (p q h : Option Val) (tp tq th : Option Ty)
    (ht : HasTyFields (requestFields p q h) (requestFields tp tq th))
    (hn : ∀ v, p = some v ∨ q = some v ∨ h = some v → ¬ HasNaN v)
    (hqd : ∀ t, tq = some t → (names t).Nodup)
    (hhd : ∀ t, th = some t → isStruct t = true ∧
      ((names t).map lowerText).Nodup ∧ "content-length".toList ∉ (names t).map lowerText)
    (body : Bytes) (r : Request)
    (hs : serRequest m e (.struct (requestFields p q h)) body = .ok r) (hr : AsciiNames r.headers) :
    ∃ target segs, parseTarget o r.target = some target ∧ target.segs = some segs ∧
      ∀ hs', hs' ≠ [] → AsciiNames hs' →
        (∀ t, th = some t → askedFor t hs' = askedFor t r.headers) →
        (Matches e segs ∧ deRequest e (.struct (requestFields tp tq th)) target hs' =
            .ok (.struct (requestFields p q h)) ↔
          PathIntact e p tp ∧ (∀ v, q = some v → QueryIntact v) ∧
            ∀ v, h = some v → HeaderIntact v) := by
  obtain ⟨tp', tq', th', he, hp, hq, hh⟩ := requestFields_typed ht
  obtain ⟨rfl, rfl, rfl⟩ := requestFields_inj he
  clear ht he
  rw [C23_in_order] at hs
  split at hs
  · cases hs
  rw [requestOf] at hs
  obtain ⟨path, hpath, hs⟩ := Res.bind_ok_eq hs
  obtain ⟨query, hquery, hs⟩ := Res.bind_ok_eq hs
  obtain ⟨own, hown, hs⟩ := Res.bind_ok_eq hs
  cases hs
  have hqc : ∀ q ∈ query, ∀ c ∈ q, QueryChar c := by
    cases q with
    | none => cases hquery; intro q hq; cases hq
    | some v =>
      obtain ⟨text, htext, hquery⟩ := Res.bind_ok_eq hquery
      cases hquery
      intro q hq
      cases hq
      exact serQuery_chars htext
  have key1 : ∃ segs, parseTarget o (joinTarget path query) = some ⟨some segs, query⟩ ∧
      (Matches e segs ∧ (∀ v t, p = some v → tp = some t → dePath e t (some segs) = .ok v) ↔
        PathIntact e p tp) := by
    rcases hp with ⟨rfl, rfl⟩ | ⟨v, t, rfl, rfl, hvt⟩
    · rw [requestPath] at hpath
      split at hpath
      · cases hpath
      rename_i hvar
      cases hpath
      have hvc : ([] : List Str).length = varCount e := by
        rw [varCount_eq_countP]
        exact (List.countP_eq_zero.2 fun s hs => by
          intro h; exact hvar (by simpa [of_decide_eq_true h] using hs)).symm
      obtain ⟨segs, h1, h2, h3⟩ := parseTarget_pushed o (instantiate e []) query hqc
      refine ⟨segs, h2, ?_, ?_⟩
      · rintro ⟨hm, -⟩
        exact ⟨[], .absent hvar, carried_of_matches hm h1
          (h3 (by rw [instantiate_length, matches_length hm])) hvc (by simp)⟩
      · rintro ⟨ss, hpp, hc⟩
        cases hpp
        have h4 := pathSegments_push hc
        rw [h1] at h4
        cases h4
        exact ⟨matches_instantiate hpc [], fun v t h => by cases h⟩
    · obtain ⟨segs, h1, h2⟩ := C108_path o e hpc v t hvt (hn v (.inl rfl)) path hpath query hqc
      refine ⟨segs, h1, ?_⟩
      rw [← h2]
      constructor
      · rintro ⟨hm, hd⟩
        exact ⟨hm, hd v t rfl rfl⟩
      · rintro ⟨hm, hd⟩
        exact ⟨hm, fun _ _ h1 h2 => by cases h1; cases h2; exact hd⟩
  obtain ⟨segs, h1, h2⟩ := key1
  refine ⟨⟨some segs, query⟩, segs, ?_, rfl, fun hs' hne ha ho => ?_⟩
  · rw [← h1]; cases query <;> rfl
  rw [deRequest_parts (hp.imp id fun ⟨v, t, a, b, _⟩ => ⟨v, t, a, b⟩)
    (hq.imp id fun ⟨v, t, a, b, _⟩ => ⟨v, t, a, b⟩) (hh.imp id fun ⟨v, t, a, b, _⟩ => ⟨v, t, a, b⟩) hne,
    ← and_assoc, h2]
  refine and_congr_right fun _ => and_congr ?_ ?_
  · rcases hq with ⟨rfl, rfl⟩ | ⟨v, t, rfl, rfl, hvt⟩
    · simp
    · obtain ⟨text, htext, hquery⟩ := Res.bind_ok_eq hquery
      cases hquery
      have := C108_query v t hvt (hqd t rfl) (hn v (.inr (.inl rfl))) text htext
      constructor
      · intro h _ h'; cases h'; exact this.1 (h v t rfl rfl)
      · intro h _ _ h1 h2; cases h1; cases h2; exact this.2 (h v rfl)
  · rcases hh with ⟨rfl, rfl⟩ | ⟨v, t, rfl, rfl, hvt⟩
    · simp
    · obtain ⟨hst, hnd, hcl⟩ := hhd t rfl
      have := header_part_iff hvt hst hnd hcl (hn v (.inr (.inr rfl))) body hown
        (fun x hx => hr x (List.mem_append_left _ hx)) ha (ho t rfl)
      constructor
      · intro h _ h'; cases h'; exact this.1 (h v t rfl rfl)
      · intro h _ _ h1 h2; cases h1; cases h2; exact this.2 (h v rfl)

/-- A request and its type, with the parts of both. -/
inductive RequestParts : Val → Ty → Option Val → Option Val → Option Val → Option Ty → Option Ty →
    Option Ty → Prop where
  | struct (p q h tp tq th) : RequestParts (.struct (requestFields p q h))
      (.struct (requestFields tp tq th)) p q h tp tq th
  | newtypeStruct {v t p q h tp tq th} : RequestParts v t p q h tp tq th →
      RequestParts (.newtypeStruct v) (.newtypeStruct t) p q h tp tq th

namespace RequestParts
variable {v : Val} {t : Ty} {p q h : Option Val} {tp tq th : Option Ty}

theorem ser (hp : RequestParts v t p q h tp tq th) (m : Method) (e : EntryPoint) (body : Bytes) :
    serRequest m e v body = serRequest m e (.struct (requestFields p q h)) body := by
  induction hp with
  | struct => rfl
  | newtypeStruct _ ih => exact ih

theorem de (hp : RequestParts v t p q h tp tq th) (e : EntryPoint) (target : Target) (hs : List Header) :
    deRequest e t target hs = .ok v ↔ deRequest e (.struct (requestFields tp tq th)) target hs =
      .ok (.struct (requestFields p q h)) := by
  induction hp with
  | struct => rfl
  | @newtypeStruct v t _ _ _ _ _ _ _ ih =>
    rw [← ih, deRequest, deRequest, ReqDe.de]
    cases ReqDe.de ⟨e, target, hs⟩ t with
    | ok w =>
      show Res.ok _ = _ ↔ _
      rw [Res.ok.injEq, Res.ok.injEq, Val.newtypeStruct.injEq]
    | err k => exact ⟨nofun, nofun⟩
    | panic => exact ⟨nofun, nofun⟩

omit [LawfulFloatText] in
theorem typed (hp : RequestParts v t p q h tp tq th) (ht : HasTy v t) :
    HasTyFields (requestFields p q h) (requestFields tp tq th) := by
  induction hp with
  | struct => cases ht with | struct ht => exact ht
  | newtypeStruct _ ih => cases ht with | newtypeStruct ht => exact ih ht

omit [LawfulFloatText] in
theorem structOf (hp : RequestParts v t p q h tp tq th) : StructOf t (requestFields tp tq th) := by
  induction hp with
  | struct => exact .struct _
  | newtypeStruct _ ih => exact .newtypeStruct ih

omit [LawfulFloatText] in
theorem noNaN (hp : RequestParts v t p q h tp tq th) (hn : ¬ HasNaN v) :
    ∀ w, p = some w ∨ q = some w ∨ h = some w → ¬ HasNaN w := by
  induction hp with
  | struct p q h =>
    rintro w (rfl | rfl | rfl) hw
    · exact hn (.struct (n := "path".toList) (by simp [requestFields, optField]) hw)
    · exact hn (.struct (n := "query".toList) (by simp [requestFields, optField]) hw)
    · exact hn (.struct (n := "header".toList) (by simp [requestFields, optField]) hw)
  | newtypeStruct _ ih => exact ih fun hw => hn (.newtypeStruct hw)

theorem intact (hp : RequestParts v t p q h tp tq th) (e : EntryPoint) (ss : List Str) :
    RequestIntact e v t ss ↔ (PathPart e p tp ss ∧ Carried (instantiate e ss)) ∧
      (∀ v, q = some v → QueryIntact v) ∧ ∀ v, h = some v → HeaderIntact v := by
  induction hp with
  | struct p q h tp tq th =>
    constructor
    · intro hi
      generalize hv : Val.struct (requestFields p q h) = v at hi
      generalize ht : Ty.struct (requestFields tp tq th) = t at hi
      cases hi with
      | struct h1 h2 h3 h4 =>
        obtain ⟨rfl, rfl, rfl⟩ := requestFields_inj (Val.struct.inj hv)
        obtain ⟨rfl, rfl, rfl⟩ := requestFields_inj (Ty.struct.inj ht)
        exact ⟨⟨h1, h2⟩, h3, h4⟩
      | _ => cases hv
    · rintro ⟨⟨h1, h2⟩, h3, h4⟩
      exact .struct h1 h2 h3 h4
  | newtypeStruct _ ih =>
    rw [← ih]
    exact ⟨fun h => by cases h; assumption, .newtypeStruct⟩

omit [LawfulFloatText] in
theorem lookups (hp : RequestParts v t p q h tp tq th) (hty : RequestTy t) :
    (∀ u, tq = some u → (names u).Nodup) ∧
    ∀ u, th = some u → (requestFields tp tq th).lookup "header".toList = some u ∧ isStruct u = true ∧
      ((names u).map lowerText).Nodup ∧ "content-length".toList ∉ (names u).map lowerText := by
  have l1 : (requestFields tp tq th).lookup "query".toList = tq := by
    cases tp <;> cases tq <;> cases th <;> rfl
  have l2 : (requestFields tp tq th).lookup "header".toList = th := by
    cases tp <;> cases tq <;> cases th <;> rfl
  exact ⟨fun u hu => hty.query _ u hp.structOf (by rw [l1, hu]),
    fun u hu => ⟨by rw [l2, hu], hty.header _ u hp.structOf (by rw [l2, hu])⟩⟩

end RequestParts

/-- A request that arrives has such parts. -/
theorem intact_parts {e : EntryPoint} {v : Val} {t : Ty} {ss : List Str} (hi : RequestIntact e v t ss) :
    ∃ p q h tp tq th, RequestParts v t p q h tp tq th := by
  induction hi with
  | struct => exact ⟨_, _, _, _, _, _, .struct ..⟩
  | newtypeStruct _ ih =>
    obtain ⟨p, q, h, tp, tq, th, hp⟩ := ih
    exact ⟨p, q, h, tp, tq, th, .newtypeStruct hp⟩

/-- And so has one that is sent and read as it was sent. -/
theorem read_parts {m : Method} {e : EntryPoint} {v : Val} {t : Ty} (ht : HasTy v t)
    (hd : ∀ ts, StructOf t ts → DistinctNames ts) {body : Bytes} {r : Request}
    (hs : serRequest m e v body = .ok r) {target : Target} {hs' : List Header}
    (hde : deRequest e t target hs' = .ok v) : ∃ p q h tp tq th, RequestParts v t p q h tp tq th := by
  cases ht with
  | newtypeStruct ht =>
    rw [deRequest, ReqDe.de] at hde
    obtain ⟨w, h1, h2⟩ := Res.bind_ok_eq hde
    cases h2
    obtain ⟨p, q, h, tp, tq, th, hp⟩ := read_parts ht (fun ts h => hd ts (.newtypeStruct h)) hs h1
    exact ⟨p, q, h, tp, tq, th, .newtypeStruct hp⟩
  | @struct fs ts htf =>
    have hdn : DistinctNames fs := by
      have := hd ts (.struct ts)
      rw [DistinctNames] at this ⊢
      rwa [← HasTyFields_names htf] at this
    obtain ⟨p, q, h, rfl, -⟩ := C23_only_in_order m e fs hdn body r hs
    obtain ⟨tp, tq, th, rfl, -⟩ := requestFields_typed htf
    exact ⟨p, q, h, tp, tq, th, .struct ..⟩
  | _ => first | cases hde | cases hs
termination_by sizeOf v

/-- **C108.** Exactly which requests arrive: whatever request without NaN the client sends, to whatever
entry point of plain constants, the path matches the entry point and the procedure gets the same request,
with any other headers that have different names in any places, if and only if it is a struct, possibly
inside of newtypes, each of whose parts is one that arrives. -/
theorem C108_request (o : UrlOracle) (m : Method) (e : EntryPoint) (hpc : PlainConsts e)
    (v : Val) (t : Ty) (ht : HasTy v t) (hty : RequestTy t) (hn : ¬ HasNaN v)
    (body : Bytes) (r : Request) (hs : serRequest m e v body = .ok r) (hr : AsciiNames r.headers)
    (hs' : List Header) (hne : hs' ≠ []) (ha : AsciiNames hs')
    (hsame : ∀ ts u, StructOf t ts → ts.lookup "header".toList = some u →
      askedFor u hs' = askedFor u r.headers) :
    (∃ target segs, parseTarget o r.target = some target ∧ target.segs = some segs ∧
      Matches e segs ∧ deRequest e t target hs' = .ok v) ↔ ∃ ss, RequestIntact e v t ss := by
  have key : ∀ p q h tp tq th, RequestParts v t p q h tp tq th →
      ∃ target segs, parseTarget o r.target = some target ∧ target.segs = some segs ∧
        (Matches e segs ∧ deRequest e t target hs' = .ok v ↔ ∃ ss, RequestIntact e v t ss) := by
    intro p q h tp tq th hp
    obtain ⟨k1, k2⟩ := hp.lookups hty
    obtain ⟨target, segs, h1, h2, h3⟩ := struct_intact o m e hpc p q h tp tq th (hp.typed ht)
      (hp.noNaN hn) k1 (fun u hu => (k2 u hu).2) body r (by rw [← hp.ser]; exact hs) hr
    refine ⟨target, segs, h1, h2, ?_⟩
    rw [hp.de, h3 hs' hne ha fun u hu => hsame _ u hp.structOf (k2 u hu).1]
    constructor
    · rintro ⟨⟨ss, a⟩, b⟩
      exact ⟨ss, (hp.intact e ss).2 ⟨a, b⟩⟩
    · rintro ⟨ss, hi⟩
      obtain ⟨a, b⟩ := (hp.intact e ss).1 hi
      exact ⟨⟨ss, a⟩, b⟩
  constructor
  · rintro ⟨target, segs, h1, h2, h3, h4⟩
    obtain ⟨p, q, h, tp, tq, th, hp⟩ := read_parts ht hty.fields hs h4
    obtain ⟨target', segs', h1', h2', h5⟩ := key p q h tp tq th hp
    rw [h1] at h1'
    cases h1'
    rw [h2] at h2'
    cases h2'
    exact h5.1 ⟨h3, h4⟩
  · rintro ⟨ss, hi⟩
    obtain ⟨p, q, h, tp, tq, th, hp⟩ := intact_parts hi
    obtain ⟨target, segs, h1, h2, h5⟩ := key p q h tp tq th hp
    exact ⟨target, segs, h1, h2, h5.2 ⟨ss, hi⟩⟩

end

end Htrpc
