/-
What arrives is what was sent (C72, C73, C74).
-/
import Verif.Lemmas.Integrity
import Verif.Props.Decode

namespace Htrpc
open Spec

section
variable [LawfulFloatText]

/-! ### C72: queries -/

/-- **C72.** Whatever value is sent as a query, if a receiver of its type accepts the query, then it
gets that value: each field of a struct under its name, the entries of a map in their order, up to the
bits of NaN. Only `Some` of an absent value arrives as `None`, and entries of a map with an absent
value are missing; if keys of the map are sent with equal texts, the last one counts. -/
theorem C72_query (v : Val) (t : Ty) (ht : HasTy v t) (hd : (names t).Nodup) (q : Str)
    (hs : serQuery v = .ok q) (w : Val) (hw : deQuery t (some q) = .ok w) : QueryArrives v w := by
  have h := serQuery_written hs
  clear hs
  generalize hq : formParse q = ps at h
  induction h generalizing t w with
  | single h =>
    unfold deQuery at hw
    rw [Option.getD_some, hq, QueryDe.de_single h ht] at hw
    cases hw
  | @struct fs es h =>
    cases ht with
    | @struct _ ts ht =>
      have he : (es.map fun e => (id e.1, e.2)) = es := by simp
      rw [he] at hq
      have hdf : DistinctNames fs := by
        unfold DistinctNames; rw [HasTyFields_names ht]; exact hd
      rw [deQuery_tame hd, Option.getD_some, hq] at hw
      · cases hr : readStruct readText ts es with
        | none => rw [hr] at hw; cases hw
        | some u =>
          rw [hr] at hw
          cases hw
          obtain ⟨ws, hc, rfl⟩ := Option.map_eq_some_iff.1 hr
          refine .struct (collect_arrives ht (fun n x u y hn _ hx hv => ?_) hc)
          rcases FieldEntries_filter h hdf hn with ⟨ho, hf⟩ | ⟨s, hsent, hf⟩
          · simp only [fieldValue, hf] at hv
            split at hv
            · cases hv
              exact absent_arrives ho hx (by assumption)
            · cases hv
          · simp only [fieldValue, hf] at hv
            exact .same (readText_sent hsent hx hv)
      · rw [Option.getD_some, hq]
        refine .of_declared fun p hp => ?_
        have := FieldEntries_name h (List.mem_map.2 ⟨p, hp, rfl⟩)
        unfold Declared at this ⊢
        rwa [HasTyFields_names ht] at this
  | structVariant h => cases ht; cases hw
  | @map kvs es h =>
    cases ht with
    | @map _ a b ht =>
      rw [deQuery_entries, Option.getD_some, hq] at hw
      cases hr : readEntries readText a b es with
      | none => rw [hr] at hw; cases hw
      | some xs =>
        rw [hr] at hw
        cases hw
        exact .map (readEntries_arrive h ht hr) (insertAll_mapOf xs)
  | some _ ih =>
    cases ht with
    | some ht =>
      rw [deQuery_option] at hw
      obtain ⟨x, hx, hw⟩ := Res.bind_ok_eq hw
      cases hw
      exact .some (ih _ ht hd _ hx hq)
  | newtypeStruct _ ih =>
    cases ht with
    | newtypeStruct ht =>
      rw [deQuery_newtype] at hw
      obtain ⟨x, hx, hw⟩ := Res.bind_ok_eq hw
      cases hw
      exact .newtypeStruct (ih _ ht hd _ hx hq)
  | newtypeVariant => cases ht; cases hw

/-! ### C73: headers -/

omit [LawfulFloatText] in
theorem nodup_map_inj {f : Str → Str} {l : List Str} (h : (l.map f).Nodup) {a b : Str} (ha : a ∈ l)
    (hb : b ∈ l) (hab : f a = f b) : a = b := by
  induction l with
  | nil => cases ha
  | cons x l ih =>
    rw [List.map_cons, List.nodup_cons] at h
    rcases List.mem_cons.1 ha with h' | ha <;> rcases List.mem_cons.1 hb with h'' | hb
    · rw [h', h'']
    · exact absurd (List.mem_map.2 ⟨_, hb, by rw [← hab, h']⟩) h.1
    · exact absurd (List.mem_map.2 ⟨_, ha, by rw [hab, h'']⟩) h.1
    · exact ih h.2 ha hb

omit [LawfulFloatText] in
theorem nodup_of_map {f : Str → Str} {l : List Str} (h : (l.map f).Nodup) : l.Nodup := by
  induction l with
  | nil => exact List.nodup_nil
  | cons x l ih =>
    rw [List.map_cons, List.nodup_cons] at h
    exact List.nodup_cons.2 ⟨fun hx => h.1 (List.mem_map.2 ⟨x, hx, rfl⟩), ih h.2⟩

/-- The headers with the name of a field are its own. -/
theorem own_entries {fs : List (Str × Val)} {es : List (Str × Bytes)} (h : SentHeaders fs es)
    (hd : ((fs.map Prod.fst).map lowerText).Nodup) {hs : List Header} (hn : AsciiNames hs)
    (ho : (hs.filter fun h => decide (nameText h.1 ∈ (fs.map Prod.fst).map lowerText)) =
      es.map fun e => (utf8 e.1, e.2)) {n : Str} {v : Val} (hm : (n, v) ∈ fs) (hl : LowerName n) :
    (entries hs).filter (fun e => decide (e.1 = n)) = es.filter (fun e => decide (e.1 = n)) := by
  have hmem : n ∈ (fs.map Prod.fst).map lowerText :=
    List.mem_map.2 ⟨n, List.mem_map.2 ⟨_, hm, rfl⟩, lowerText_lower hl⟩
  have hasc : ∀ e ∈ es, Ascii e.1 := by
    intro e he
    refine ascii_of_utf8 ?_
    have : (utf8 e.1, e.2) ∈ hs.filter fun h =>
        decide (nameText h.1 ∈ (fs.map Prod.fst).map lowerText) := by
      rw [ho]; exact List.mem_map.2 ⟨e, he, rfl⟩
    exact hn _ (List.mem_filter.1 this).1
  have h1 : (entries hs).filter (fun e => decide (e.1 = n)) =
      (entries (es.map fun e => (utf8 e.1, e.2))).filter (fun e => decide (e.1 = n)) := by
    rw [← ho]
    clear ho hn
    induction hs with
    | nil => rfl
    | cons x hs ih =>
      by_cases hx : nameText x.1 = n
      · rw [List.filter_cons_of_pos (by simpa [hx] using hmem)]
        unfold entries at ih ⊢
        rw [List.map_cons, List.map_cons, List.filter_cons_of_pos (by simpa using hx),
          List.filter_cons_of_pos (by simpa using hx), ih]
      · have e1 : (entries (x :: hs)).filter (fun e => decide (e.1 = n)) =
            (entries hs).filter (fun e => decide (e.1 = n)) := by
          unfold entries
          rw [List.map_cons, List.filter_cons_of_neg (by simpa using hx)]
        rw [e1, ih]
        by_cases hp : nameText x.1 ∈ (fs.map Prod.fst).map lowerText
        · rw [List.filter_cons_of_pos (by simpa using hp)]
          unfold entries
          rw [List.map_cons, List.filter_cons_of_neg (by simpa using hx)]
        · rw [List.filter_cons_of_neg (by simpa using hp)]
  rw [h1]
  have hdecl : ∀ e ∈ es, e.1 ∈ fs.map Prod.fst := fun e he =>
    FieldEntries_name h (List.mem_map.2 ⟨e, he, rfl⟩)
  have hnm : n ∈ fs.map Prod.fst := List.mem_map.2 ⟨_, hm, rfl⟩
  clear h h1 ho
  induction es with
  | nil => rfl
  | cons e es ih =>
    have ih := ih (fun x hx => hasc x (List.mem_cons_of_mem _ hx))
      (fun x hx => hdecl x (List.mem_cons_of_mem _ hx))
    have he := nameText_ascii (hasc e (List.mem_cons_self ..))
    unfold entries at ih ⊢
    rw [List.map_cons, List.map_cons]
    by_cases hx : e.1 = n
    · have hx' : nameText (utf8 e.1) = n := by rw [he, hx, lowerText_lower hl]
      rw [List.filter_cons_of_pos (by simpa using hx'), List.filter_cons_of_pos (by simpa using hx), ih]
      simp only [hx', ← hx]
    · have hx' : nameText (utf8 e.1) ≠ n := by
        rw [he]
        intro hh
        exact hx (nodup_map_inj hd (hdecl e (List.mem_cons_self ..)) hnm
          (hh.trans (lowerText_lower hl).symm))
      rw [List.filter_cons_of_neg (by simpa using hx'), List.filter_cons_of_neg (by simpa using hx), ih]

/-- **C73.** Whatever struct is sent as headers, if a receiver of its type accepts them, with any other
headers that have different names, in any places, then it gets the struct, up to the bits of NaN. Only
`Some` of an absent value arrives as `None`; and so does an optional field whose name is not in lower
case. -/
theorem C73_headers (v : Val) (t : Ty) (ht : HasTy v t) (hst : isStruct t = true)
    (hd : ((names t).map lowerText).Nodup) (before own : List Header)
    (hs : serHeaders before v = .ok (before ++ own)) (hs' : List Header) (hn : AsciiNames hs')
    (ho : (hs'.filter fun h => decide (nameText h.1 ∈ (names t).map lowerText)) = own)
    (w : Val) (hw : deHeaders t hs' = .ok w) : HeaderArrives v w := by
  obtain ⟨own', h1, h⟩ := serHeaders_written hs
  rw [← List.append_cancel_left h1] at h
  clear hs h1 own'
  induction h generalizing t w with
  | single h =>
    exfalso
    clear ho hw hd
    induction h generalizing t with
    | sent h =>
      induction h generalizing t with
      | newtypeStruct _ ih => cases ht with | newtypeStruct ht => exact ih _ ht hst
      | _ => cases ht <;> cases hst
    | some _ ih => cases ht with | some ht => exact ih _ ht hst
    | newtypeStruct _ ih => cases ht with | newtypeStruct ht => exact ih _ ht hst
    | _ => cases ht <;> cases hst
  | @struct fs es h =>
    cases ht with
    | @struct _ ts ht =>
      have hnames : names (.struct ts) = fs.map Prod.fst := (HasTyFields_names ht).symm
      rw [hnames] at hd ho
      have hdf : DistinctNames fs := nodup_of_map hd
      have hdt : DistinctNames ts := by
        unfold DistinctNames; rw [← HasTyFields_names ht]; exact hdf
      rw [deHeaders_struct hdt hn] at hw
      cases hr : readStruct readBytes ts (entries hs') with
      | none => rw [hr] at hw; cases hw
      | some u =>
        rw [hr] at hw
        cases hw
        obtain ⟨ws, hc, rfl⟩ := Option.map_eq_some_iff.1 hr
        refine .struct (collect_arrives ht (fun n x u y hm _ hx hv => ?_) hc)
        by_cases hl : LowerName n
        · refine .named hl ?_
          rcases FieldEntries_filter h hdf hm with ⟨hom, hf⟩ | ⟨s, hsent, hf⟩
          · rw [← own_entries h hd hn ho hm hl] at hf
            simp only [fieldValue, hf] at hv
            split at hv
            · cases hv
              exact absent_arrives hom hx (by assumption)
            · cases hv
          · rw [← own_entries h hd hn ho hm hl] at hf
            simp only [fieldValue, hf] at hv
            exact .same (readBytes_sent hsent hx hv)
        · have hf : (entries hs').filter (fun e => decide (e.1 = n)) = [] := by
            refine filter_name_nil fun hdecl => hl ?_
            obtain ⟨e, he, rfl⟩ := List.mem_map.1 hdecl
            obtain ⟨x, hx, rfl⟩ := List.mem_map.1 he
            exact lowerName_nameText (hn x hx)
          simp only [fieldValue, hf] at hv
          split at hv
          · rename_i hopt
            cases hv
            cases hx with
            | none => exact .none
            | some => exact .unnamed hl
            | _ => cases hopt
          · cases hv
  | structVariant h => cases ht; cases hst
  | map h => cases ht; cases hst
  | some _ ih =>
    cases ht with
    | some ht =>
      rw [deHeaders_option] at hw
      obtain ⟨x, hx, hw⟩ := Res.bind_ok_eq hw
      cases hw
      exact .some (ih _ ht hst hd ho _ hx)
  | newtypeStruct _ ih =>
    cases ht with
    | newtypeStruct ht =>
      rw [deHeaders_newtype] at hw
      obtain ⟨x, hx, hw⟩ := Res.bind_ok_eq hw
      cases hw
      exact .newtypeStruct (ih _ ht hst hd ho _ hx)
  | newtypeVariant => cases ht; cases hst

omit [LawfulFloatText] in
theorem readEntries_append {β : Type} {read : Ty → β → Option Val} {k v : Ty} {a b : List (β × β)}
    {es : List (Val × Val)} (h : readEntries read k v (a ++ b) = some es) :
    ∃ x y, es = x ++ y ∧ readEntries read k v a = some x ∧ readEntries read k v b = some y := by
  induction a generalizing es with
  | nil => exact ⟨[], es, rfl, rfl, h⟩
  | cons e a ih =>
    obtain ⟨n, m⟩ := e
    rw [List.cons_append, readEntries] at h
    split at h
    · rename_i p q r h1 h2 h3
      cases h
      obtain ⟨x, y, rfl, h4, h5⟩ := ih h3
      exact ⟨(p, q) :: x, y, rfl, by rw [readEntries, h1, h2, h4], h5⟩
    · cases h

theorem headerEntries_arrive {kvs : List (Val × Val)} {ps : List Header}
    (h : MapEntries SentHeader kvs ps) (hn : AsciiNames ps) {v : Ty} (ht : HasTyMap kvs .str v)
    {es : List (Val × Val)}
    (he : readEntries readBytes .str v (ps.map fun h => (lowerName h.1, h.2)) = some es) :
    HeaderEntriesArrive kvs es := by
  induction h generalizing es with
  | nil => cases he; exact .nil
  | absent _ ho _ ih => cases ht with | cons _ _ ht => exact .lost ho (ih hn ht he)
  | @present k v' a b kvs ps ha hb _ ih =>
    cases ht with
    | cons t1 t2 t3 =>
      rw [List.map_cons, readEntries] at he
      split at he
      · rename_i p q m h1 h2 h3
        cases he
        have hrest := ih (fun x hx => hn x (List.mem_cons_of_mem _ hx)) t3 h3
        have hasc := hn _ (List.mem_cons_self ..)
        cases t1
        cases ha with
        | sent ha =>
          cases ha with
          | str s =>
            rw [readBytes, fromUtf8_lowerName hasc] at h1
            cases h1
            simp only [nameText_ascii (ascii_of_utf8 hasc)]
            exact .same (readBytes_sent hb t2 h2) hrest
      · cases he

/-- **C73**, maps. The entries of a map with texts as keys, sent as headers, arrive between the entries
of all other headers, with their keys in lower case; entries with an absent value are missing. Of equal
names the last one counts. -/
theorem C73_header_map (kvs : List (Val × Val)) (vt : Ty) (ht : HasTyMap kvs .str vt)
    (before own : List Header) (hs : serHeaders before (.map kvs) = .ok (before ++ own))
    (pre post : List Header) (hn : AsciiNames own) (w : Val)
    (hw : deHeaders (.map .str vt) (pre ++ own ++ post) = .ok w) :
    ∃ a es b m, HeaderEntriesArrive kvs es ∧ w = .map m ∧ MapOf (a ++ es ++ b) m ∧
      readEntries readBytes .str vt (pre.map fun h => (lowerName h.1, h.2)) = some a ∧
      readEntries readBytes .str vt (post.map fun h => (lowerName h.1, h.2)) = some b := by
  obtain ⟨own', h1, h⟩ := serHeaders_written hs
  rw [← List.append_cancel_left h1] at h
  cases h with
  | single h =>
    cases h with
    | sent h => cases h
  | map h =>
    rw [deHeaders_entries] at hw
    split at hw
    · rename_i es he
      cases hw
      rw [List.map_append, List.map_append] at he
      obtain ⟨x, b, rfl, hx, hb⟩ := readEntries_append he
      obtain ⟨a, y, rfl, ha, hy⟩ := readEntries_append hx
      exact ⟨a, y, b, _, headerEntries_arrive h hn ht hy, rfl, insertAll_mapOf _, ha, hb⟩
    · cases hw

end

/-- **C73**, a single text as `header` is not sent at all, and the receiver gets the name of the first
header instead, whatever it is. -/
theorem C73_single_text [FloatText] (s : Str) (before : List Header) (h : Header) (hs : List Header)
    (hn : ∀ b ∈ h.1, b.toNat < 0x80) :
    serHeaders before (.str s) = .ok before ∧
      deHeaders .str (h :: hs) = .ok (.str (nameText h.1)) := by
  constructor
  · have := (C69_headers (.str s) before).1 _ (.single (.sent (.str s)))
    rwa [List.append_nil] at this
  · rw [deHeaders, HeaderDe.de]
    simp only [HeaderDe.scalar, HeaderDe.nextStr, HeaderDe.nextBytes, HeaderDe.new, if_true,
      Res.bind_ok, fromUtf8_lowerName hn, Res.ofOption_some]

/-! ### C74: paths -/

section
variable [LawfulFloatText]

theorem readSegment_sent {v : Val} {s g : Str} (h : SentAs v s) {t : Ty} (ht : HasTy v t)
    (hg : g = if Dots s then [] else encodeSegment s) {w : Val} (hw : readSegment t g = some w) :
    ArgArrives v w := by
  have plain : Ascii s ∧ NoTabNl s ∧ s ≠ [] ∧ ¬ Dots s → readArg t s = some w := by
    rintro ⟨h1, h2, -, h4⟩
    rw [hg, if_neg h4, readSegment_eq, percentDecode_ascii h1 h2] at hw
    exact hw
  induction h generalizing t w with
  | bool b =>
    cases ht
    cases b
    · have := plain (harmless (by decide) ⟨'f', by decide⟩)
      cases this
      exact .bool _
    · have := plain (harmless (by decide) ⟨'t', by decide⟩)
      cases this
  | int ty i =>
    cases ht with
    | int _ _ hf =>
      have := plain (harmless (fun c hc => (showInt_chars hc).imp_right .inl) (showInt_some_digit i))
      rw [readArg, parseInt_showInt hf] at this
      cases this
      exact .int _ _
  | f32 x =>
    cases ht
    have := plain (harmless (LawfulFloatText.show64_alnum _) (LawfulFloatText.show64_some_alnum _))
    exact .f32 (readText_sentAs (.f32 x) (.f32 x) this)
  | f64 x =>
    cases ht
    have := plain (harmless (LawfulFloatText.show64_alnum _) (LawfulFloatText.show64_some_alnum _))
    exact .f64 (readText_sentAs (.f64 x) (.f64 x) this)
  | char => cases ht; rw [readSegment_eq] at hw; cases hp : percentDecode g <;> rw [hp] at hw <;> cases hw
  | str s =>
    cases ht
    by_cases hd : Dots s
    · rw [if_pos hd] at hg
      subst hg
      cases hw
      exact .dots hd
    · rw [hg, if_neg hd, readSegment_eq, percentDecode_encodeSegment] at hw
      cases hw
      exact .str hd
  | unitVariant =>
    cases ht; rw [readSegment_eq] at hw; cases hp : percentDecode g <;> rw [hp] at hw <;> cases hw
  | newtypeStruct _ ih =>
    cases ht with
    | newtypeStruct ht =>
      rw [readSegment_eq] at hw
      obtain ⟨x, hx, hr⟩ := Option.bind_eq_some_iff.1 hw
      rw [readArg] at hr
      obtain ⟨y, hy, rfl⟩ := Option.map_eq_some_iff.1 hr
      refine .newtypeStruct (ih ht hg (by rw [readSegment_eq, hx]; exact hy) fun hh => ?_)
      have := plain hh
      rw [readArg] at this
      obtain ⟨z, hz, he⟩ := Option.map_eq_some_iff.1 this
      cases he
      exact hz
  | newtypeVariant =>
    cases ht; rw [readSegment_eq] at hw; cases hp : percentDecode g <;> rw [hp] at hw <;> cases hw

theorem readSegments_sent {vs : List Val} {ss : List Str} (hs : SentAll vs ss) {ts : List Ty}
    (ht : HasTys vs ts) {segs : List Str}
    (hg : Pairs (fun g s => g = if Dots s then [] else encodeSegment s) segs ss) {ws : List Val}
    (hw : readSegments ts segs = some ws) : ArgsArrive vs ws := by
  induction hs generalizing ts segs ws with
  | nil => cases ht; cases hg; cases hw; exact .nil
  | cons hv _ ih =>
    cases ht with
    | cons ht hts =>
      cases hg with
      | cons hg hgs =>
        rw [readSegments] at hw
        split at hw
        · rename_i h1 h2
          cases hw
          exact .cons (readSegment_sent hv ht hg h1) (ih hts hgs h2)
        · cases hw

omit [LawfulFloatText] in
theorem Pairs.length {α β : Type} {R : α → β → Prop} {as : List α} {bs : List β}
    (h : Pairs R as bs) : as.length = bs.length := by
  induction h with
  | nil => rfl
  | cons _ _ ih => simp [ih]

theorem readPath_none {t : Ty} (h : ∀ s, readArg t s = none) (segs : List Str) :
    segs.head?.bind (readSegment t) = none := by
  cases segs with
  | nil => rfl
  | cons s segs =>
    show (unescape s).bind (readArg t) = none
    cases unescape s with
    | none => rfl
    | some x => exact h x

theorem readPath_sent {v : Val} {vs : List Val} (hv : PathArgs v vs) {ss : List Str}
    (hs : SentAll vs ss) {t : Ty} (ht : HasTy v t) {segs : List Str}
    (hg : Pairs (fun g s => g = if Dots s then [] else encodeSegment s) segs ss) {w : Val}
    (hw : readPath t segs = some w) : PathArrives v w := by
  have hlen : segs.length = vs.length := by
    rw [hg.length, (PathSer.writes_of_sent hs).length]
  induction hv generalizing t w with
  | unit =>
    cases ht
    rw [readPath, readPath_none fun _ => rfl] at hw <;> first | cases hw | simp
  | unitStruct =>
    cases ht
    rw [readPath, readPath_none fun _ => rfl] at hw <;> first | cases hw | simp
  | tuple vs =>
    cases ht with
    | tuple ht =>
      rw [readPath, List.take_of_length_le (by rw [hlen, HasTys_length ht]; exact Nat.le_refl _)] at hw
      obtain ⟨ws, hr, rfl⟩ := Option.map_eq_some_iff.1 hw
      exact .tuple (readSegments_sent hs ht hg hr)
  | tupleStruct vs =>
    cases ht with
    | tupleStruct ht =>
      rw [readPath, List.take_of_length_le (by rw [hlen, HasTys_length ht]; exact Nat.le_refl _)] at hw
      obtain ⟨ws, hr, rfl⟩ := Option.map_eq_some_iff.1 hw
      exact .tupleStruct (readSegments_sent hs ht hg hr)
  | tupleVariant =>
    cases ht
    rw [readPath, readPath_none fun _ => rfl] at hw <;> first | cases hw | simp
  | newtypeStruct _ ih =>
    cases ht with
    | newtypeStruct ht =>
      rw [readPath] at hw
      obtain ⟨x, hr, rfl⟩ := Option.map_eq_some_iff.1 hw
      exact .newtypeStruct (ih hs ht hr hlen)
  | newtypeVariant =>
    cases ht
    rw [readPath, readPath_none fun _ => rfl] at hw <;> first | cases hw | simp

/-- **C74.** Whatever value is sent as a path, for whatever entry point: the server finds a path; if it
matches the entry point and the procedure accepts it, then it gets the arguments that were sent, each at
its place, up to the bits of NaN; only texts may arrive changed, in the way of C10, or empty if they are
`.` or `..` (up to tabs and line breaks). -/
theorem C74_path (o : UrlOracle) (e : EntryPoint) (v : Val) (t : Ty) (ht : HasTy v t) (path : Str)
    (hs : serPath e ['/'] v = .ok path) (query : Option Str)
    (hq : ∀ q ∈ query, ∀ c ∈ q, QueryChar c) :
    ∃ segs, parseTarget o (joinTarget path query) = some ⟨some segs, query⟩ ∧
      (Matches e segs → ∀ w, dePath e t (some segs) = .ok w → PathArrives v w) := by
  by_cases hx : ∃ vs ss, PathArgs v vs ∧ SentAll vs ss ∧ vs.length = varCount e
  · obtain ⟨vs, ss, hv, hss, hl⟩ := hx
    rw [(C69_path e ['/'] v).1 vs ss hv hss hl] at hs
    cases hs
    obtain ⟨segs, -, h2, h3⟩ := parseTarget_pushed o (instantiate e ss) query hq
    refine ⟨segs, h2, fun hm w hw => ?_⟩
    have hp := variables_pairs hm (by rw [← hl, (PathSer.writes_of_sent hss).length])
      (h3 (by rw [instantiate_length, matches_length hm]))
    rw [C63_path_read e segs hm] at hw
    cases hr : readPath t (variables e segs) with
    | none => rw [hr] at hw; cases hw
    | some x =>
      rw [hr] at hw
      cases hw
      exact readPath_sent hv hss ht hp hr
  · rw [(C69_path e ['/'] v).2 hx] at hs
    cases hs

/-- **C74**, the unit `()` or a unit struct as `path`: it is sent to entry points without variables, but
never received. -/
theorem C74_unit_lost (e : EntryPoint) (hv : varCount e = 0) (n : Str) :
    (∃ path, serPath e ['/'] .unit = .ok path ∧ serPath e ['/'] (.unitStruct n) = .ok path) ∧
      ∀ segs, Matches e segs → dePath e .unit (some segs) = .err .invalid ∧
        dePath e (.unitStruct n) (some segs) = .err .invalid := by
  refine ⟨⟨_, (C69_path e ['/'] .unit).1 [] [] .unit .nil hv.symm,
    (C69_path e ['/'] (.unitStruct n)).1 [] [] (.unitStruct n) .nil hv.symm⟩, fun segs hm => ?_⟩
  rw [C63_path_read e segs hm, C63_path_read e segs hm]
  constructor
  · rw [readPath, readPath_none fun _ => rfl] <;> simp
  · rw [readPath, readPath_none fun _ => rfl] <;> simp

end

end Htrpc
