/-
What becomes of requests and responses that pass through any number of gateways (C119).
-/
import Verif.Props.PassOn
import Verif.Props.PassBack
import Verif.Spec.Chain
import Mathlib.Logic.Function.Iterate

namespace Htrpc
open Spec

/-! ### Texts -/

theorem strip_strip (s : Str) : strip (strip s) = strip s := by
  unfold strip
  rw [List.filter_filter]
  congr 1
  funext c
  simp

theorem garbled_noTabNl (s : Str) : NoTabNl (garbledText s) := by
  have key : ∀ c : Char, c.toNat < 0x80 → strip [c] = [] → c ∉ garbledText s := by
    intro c hc hst hm
    obtain ⟨b, hb, e⟩ := List.mem_map.1 hm
    have hbn : b.toNat = c.toNat := by rw [← e, charOfByte_toNat]
    obtain ⟨d, hd, hbd⟩ := List.mem_flatMap.1 hb
    have := mem_utf8Char_ascii hbd (by omega)
    rw [hbn, Char.ofNat_toNat] at this
    subst this
    have := (List.mem_filter.1 hd).2
    have h2 : d ∈ strip [d] := List.mem_filter.2 ⟨by simp, this⟩
    rw [hst] at h2
    cases h2
  exact ⟨key _ (by decide) rfl, key _ (by decide) rfl, key _ (by decide) rfl⟩

theorem strip_garbled (s : Str) : strip (garbledText s) = garbledText s :=
  strip_of_noTabNl (garbled_noTabNl s)

theorem latin1_injective {a b : Bytes} (h : latin1 a = latin1 b) : a = b := by
  unfold latin1 at h
  refine List.map_injective_iff.2 (fun x y hxy => ?_) h
  have := congrArg Char.toNat hxy
  simp only [charOfByte_toNat] at this
  exact UInt8.toNat_inj.1 this

/-- Nothing but an ASCII text becomes an ASCII text, and it stays as it is. -/
theorem garbled_eq_ascii {s x : Str} (hx : Ascii x) : garbledText s = x ↔ strip s = x := by
  constructor
  · intro h
    rw [← latin1_ascii hx] at h
    exact utf8_injective (latin1_injective h)
  · intro h
    rw [garbledText, h, latin1_ascii hx]

theorem garbled_dots {s : Str} : Dots (garbledText s) ↔ Dots s := by
  unfold Dots
  rw [strip_garbled, garbled_eq_ascii (by unfold Ascii; decide), garbled_eq_ascii (by unfold Ascii; decide)]

theorem garbled_ascii {s : Str} (h : Ascii s) (h' : NoTabNl s) : garbledText s = s :=
  (latin1_utf8_eq_iff s).2 ⟨h, h'⟩

theorem carried_garbled {e : EntryPoint} (hp : PlainConsts e) {ss : List Str}
    (h : Carried (instantiate e ss)) : Carried (instantiate e (ss.map garbledText)) := by
  have key : ∀ (e : EntryPoint) (ss : List Str), PlainConsts e →
      instantiate e (ss.map garbledText) = (instantiate e ss).map garbledText := by
    intro e
    induction e with
    | nil => intro ss _; rfl
    | cons x e ih =>
      intro ss hp
      have hp' : PlainConsts e := fun c hc => hp c (List.mem_cons_of_mem _ hc)
      cases x with
      | val c =>
        have hc := hp c (List.mem_cons_self ..)
        rw [instantiate, instantiate, List.map_cons, ih ss hp',
          garbled_ascii (fun x hx => (pathChar_keep (hc x hx)).1)
            ⟨fun h => absurd (pathChar_keep (hc _ h)).2.2 (by decide),
              fun h => absurd (pathChar_keep (hc _ h)).2.2 (by decide),
              fun h => absurd (pathChar_keep (hc _ h)).2.2 (by decide)⟩]
      | var =>
        cases ss with
        | nil =>
          have := ih [] hp'
          rw [List.map_nil] at this ⊢
          rw [instantiate, List.map_cons, ← this]
          rfl
        | cons s ss => rw [List.map_cons, instantiate, instantiate, List.map_cons, ih ss hp']
  rw [key e ss hp]
  obtain ⟨h1, h2, h3⟩ := h
  refine ⟨by simpa using h1, ?_, ?_⟩
  · intro x hx
    obtain ⟨s, hs, rfl⟩ := List.mem_map.1 hx
    rw [garbled_dots]
    exact h2 s hs
  · rw [List.length_map]
    refine h3.imp_right ?_
    rintro ⟨s, hs, hs'⟩
    refine ⟨garbledText s, by rw [List.head?_map, Option.mem_def.1 hs]; rfl, ?_⟩
    rw [strip_garbled, ne_eq, garbled_eq_ascii (by unfold Ascii; decide)]
    exact hs'

/-! ### Growth -/

theorem foreign_utf8Char (c : Char) :
    (c.toNat < 128 → (utf8Char c).countP (fun b => decide (128 ≤ b.toNat)) = 0) ∧
    (128 ≤ c.toNat → (utf8Char c).countP (fun b => decide (128 ≤ b.toNat)) = (utf8Char c).length) := by
  constructor
  · intro h
    rw [utf8Char_ascii h, List.countP_eq_zero]
    intro b hb
    rw [List.mem_singleton.1 hb, u8_toNat (by omega)]
    simpa using h
  · intro h
    rw [List.countP_eq_length]
    intro b hb
    rw [decide_eq_true_eq]
    by_contra hlt
    have := mem_utf8Char_ascii hb (by omega)
    rw [this, charOfByte_toNat] at h
    omega

theorem utf8_length (s : Str) : (utf8 s).length = asciiChars s + foreignBytes s := by
  unfold asciiChars foreignBytes
  induction s with
  | nil => rfl
  | cons c s ih =>
    rw [utf8_cons, List.length_append, List.countP_append, List.countP_cons, ih]
    by_cases h : c.toNat < 128
    · rw [(foreign_utf8Char c).1 h, utf8Char_ascii h]
      simp only [h, decide_true, if_true, List.length_singleton]
      omega
    · rw [(foreign_utf8Char c).2 (by omega)]
      simp only [h, decide_false, Bool.false_eq_true, if_false]
      omega

theorem latin1_counts (bs : Bytes) :
    foreignBytes (latin1 bs) = 2 * bs.countP (fun b => decide (128 ≤ b.toNat)) ∧
      asciiChars (latin1 bs) = bs.countP (fun b => decide (b.toNat < 128)) := by
  unfold foreignBytes asciiChars
  induction bs with
  | nil => exact ⟨rfl, rfl⟩
  | cons b bs ih =>
    have e : latin1 (b :: bs) = Char.ofNat b.toNat :: latin1 bs := rfl
    rw [e, utf8_cons, List.countP_append, List.countP_cons, List.countP_cons, List.countP_cons, ih.1, ih.2]
    have hb := u8_lt b
    by_cases h : b.toNat < 128
    · rw [(foreign_utf8Char _).1 (by rw [charOfByte_toNat]; exact h), charOfByte_toNat]
      have h' : ¬ 128 ≤ b.toNat := by omega
      simp only [h, h', decide_true, decide_false, Bool.false_eq_true, if_true, if_false]
      exact ⟨by omega, trivial⟩
    · rw [(foreign_utf8Char _).2 (by rw [charOfByte_toNat]; omega), charOfByte_toNat]
      have h' : 128 ≤ b.toNat := by omega
      have hl : (utf8Char (Char.ofNat b.toNat)).length = 2 := by
        unfold utf8Char
        rw [charOfByte_toNat]
        simp only [h, if_false]
        rw [if_pos (by omega)]
        rfl
      simp only [h, h', hl, decide_true, decide_false, Bool.false_eq_true, if_true, if_false]
      exact ⟨by omega, trivial⟩

theorem ascii_utf8 (s : Str) : (utf8 s).countP (fun b => decide (b.toNat < 128)) = asciiChars s := by
  have h1 := utf8_length s
  have h2 := List.length_eq_countP_add_countP (fun b : UInt8 => decide (b.toNat < 128)) (l := utf8 s)
  have h3 : (utf8 s).countP (fun b => decide (¬ decide (b.toNat < 128) = true)) = foreignBytes s := by
    unfold foreignBytes
    congr 1
    funext b
    simp [Nat.not_lt]
  rw [h3] at h2
  omega

theorem garbled_counts {s : Str} (h : NoTabNl s) :
    foreignBytes (garbledText s) = 2 * foreignBytes s ∧ asciiChars (garbledText s) = asciiChars s := by
  rw [garbledText, strip_of_noTabNl h]
  obtain ⟨h1, h2⟩ := latin1_counts (utf8 s)
  exact ⟨h1, h2.trans (ascii_utf8 s)⟩

/-- **C119.** At every server that a text without tabs and line breaks passes in a path, the bytes that it
needs for what is not ASCII double. -/
theorem C119_growth (n : Nat) (s : Str) (h : NoTabNl s) :
    (utf8 (garbledText^[n] s)).length = asciiChars s + 2 ^ n * foreignBytes s := by
  have key : NoTabNl (garbledText^[n] s) ∧ foreignBytes (garbledText^[n] s) = 2 ^ n * foreignBytes s ∧
      asciiChars (garbledText^[n] s) = asciiChars s := by
    induction n with
    | zero => exact ⟨h, by simp, rfl⟩
    | succ n ih =>
      rw [Function.iterate_succ_apply']
      obtain ⟨h1, h2, h3⟩ := ih
      obtain ⟨k1, k2⟩ := garbled_counts h1
      refine ⟨garbled_noTabNl _, ?_, k2.trans h3⟩
      rw [k1, h2, Nat.pow_succ]
      ac_rfl
  rw [utf8_length, key.2.1, key.2.2]

/-! ### Requests -/

section
variable [LawfulFloatText]

/-- An argument of a simple type other than `true`, in its segment. -/
theorem simple_segment {t : Ty} (h : SimpleTy t) {v : Val} (hv : HasTy v t) (ht : ¬ HasTrue v)
    (hn : ¬ HasNaN v) {s : Str} (hs : SentAs v s) :
    readSegment t (encodeSegment s) = some (garbledArg v) ∧ SentAs (garbledArg v) (garbledText s) ∧
      HasTy (garbledArg v) t ∧ ¬ HasTrue (garbledArg v) ∧ ¬ HasNaN (garbledArg v) := by
  have key : readArg t (garbledText s) = some (garbledArg v) ∧
      SentAs (garbledArg v) (garbledText s) ∧ HasTy (garbledArg v) t ∧ ¬ HasTrue (garbledArg v) ∧
      ¬ HasNaN (garbledArg v) := by
    have hp := simple_plain h hv ht hn hs
    induction hp generalizing t with
    | newtype hp ih =>
      cases hv with
      | newtypeStruct hv =>
        cases hs with
        | newtypeStruct hs =>
          cases h with
          | scalar h => cases h
          | newtype h =>
            obtain ⟨k1, k2, k3, k4, k5⟩ := ih h hv (fun h => ht (.newtypeStruct h))
              (fun h => hn (.newtypeStruct h)) hs
            refine ⟨?_, .newtypeStruct k2, .newtypeStruct k3, ?_, ?_⟩
            · rw [readArg, k1]; rfl
            · intro h; cases h with | newtypeStruct h => exact k4 h
            · intro h
              cases h with
              | newtypeStruct h => exact k5 h
              | here h => cases h with | newtypeStruct h => exact k5 (.here h)
    | str x =>
      cases hv
      cases hs
      exact ⟨rfl, .str _, .str _, nofun, by intro h; cases h with | here h => cases h⟩
    | false =>
      obtain ⟨a, b, -⟩ := plain_text_harmless .false nofun nofun
      rw [garbled_ascii a b]
      cases hv
      exact ⟨rfl, hs, .bool _, ht, hn⟩
    | int ty i =>
      obtain ⟨a, b, -⟩ := plain_text_harmless (.int ty i) nofun nofun
      rw [garbled_ascii a b]
      cases hv with
      | int _ _ hf => exact ⟨by rw [readArg, parseInt_showInt hf]; rfl, hs, .int _ _ hf, ht, hn⟩
    | f32 x hx =>
      obtain ⟨a, b, -⟩ := plain_text_harmless (.f32 x hx) nofun nofun
      rw [garbled_ascii a b]
      cases hv
      exact ⟨by rw [readArg, LawfulFloatText.parse32_show64 x hx]; rfl, hs, .f32 _, ht, hn⟩
    | f64 x hx =>
      obtain ⟨a, b, -⟩ := plain_text_harmless (.f64 x hx) nofun nofun
      rw [garbled_ascii a b]
      cases hv
      exact ⟨by rw [readArg, LawfulFloatText.parse64_show64 x hx]; rfl, hs, .f64 _, ht, hn⟩
  refine ⟨?_, key.2⟩
  rw [readSegment_eq, percentDecode_encodeSegment]
  exact key.1

theorem simple_segments {ts : List Ty} (h : ∀ u ∈ ts, SimpleTy u) {vs : List Val} (hv : HasTys vs ts)
    (ht : ∀ w ∈ vs, ¬ HasTrue w) (hn : ∀ w ∈ vs, ¬ HasNaN w) {ss : List Str} (hs : SentAll vs ss) :
    readSegments ts (ss.map encodeSegment) = some (vs.map garbledArg) ∧
      SentAll (vs.map garbledArg) (ss.map garbledText) ∧ HasTys (vs.map garbledArg) ts ∧
      (∀ w ∈ vs.map garbledArg, ¬ HasTrue w) ∧ ∀ w ∈ vs.map garbledArg, ¬ HasNaN w := by
  induction ts generalizing vs ss with
  | nil => cases hv; cases hs; exact ⟨rfl, .nil, .nil, nofun, nofun⟩
  | cons t ts ih =>
    cases hv with
    | cons hv hvs =>
      cases hs with
      | cons hs hss =>
        obtain ⟨k1, k2, k3, k4, k5⟩ := simple_segment (h _ List.mem_cons_self) hv
          (ht _ List.mem_cons_self) (hn _ List.mem_cons_self) hs
        obtain ⟨j1, j2, j3, j4, j5⟩ := ih (fun u hu => h u (List.mem_cons_of_mem _ hu)) hvs
          (fun w hw => ht w (List.mem_cons_of_mem _ hw)) (fun w hw => hn w (List.mem_cons_of_mem _ hw)) hss
        refine ⟨?_, .cons k2 j2, .cons k3 j3, List.forall_mem_cons.2 ⟨k4, j4⟩,
          List.forall_mem_cons.2 ⟨k5, j5⟩⟩
        rw [List.map_cons, readSegments, k1, j1]
        rfl

/-- The path of a request, as it is read. -/
theorem simple_readPath {t : Ty} {ts : List Ty} (htt : TupleTy t ts) (h : ∀ u ∈ ts, SimpleTy u) {v : Val}
    (hv : HasTy v t) (ht : ¬ HasTrue v) (hn : ¬ HasNaN v) {vs : List Val} (ha : ArgTuple v vs)
    {ss : List Str} (hs : SentAll vs ss) :
    readPath t (ss.map encodeSegment) = some (garbledPath v) ∧
      ArgTuple (garbledPath v) (vs.map garbledArg) ∧ SentAll (vs.map garbledArg) (ss.map garbledText) ∧
      HasTy (garbledPath v) t ∧ ¬ HasTrue (garbledPath v) ∧ ¬ HasNaN (garbledPath v) := by
  have hss : ∀ vs : List Val, SentAll vs ss → HasTys vs ts → ss.length = ts.length := by
    intro vs hs hv
    rw [← (PathSer.writes_of_sent hs).length, HasTys_length hv]
  induction htt generalizing v with
  | tuple ts =>
    cases hv with
    | tuple hv =>
      cases ha
      obtain ⟨k1, k2, k3, k4, k5⟩ := simple_segments h hv (fun w hw h => ht (.tuple hw h))
        (fun w hw h => hn (.tuple hw h)) hs
      refine ⟨?_, .tuple _, k2, .tuple k3, ?_, ?_⟩
      · rw [readPath, List.take_of_length_le (by rw [List.length_map, hss _ hs hv]; exact Nat.le_refl _), k1]
        rfl
      · intro h
        cases h with
        | tuple hw h => exact k4 _ hw h
      · intro h
        cases h with
        | tuple hw h => exact k5 _ hw h
        | here h => cases h
  | tupleStruct ts =>
    cases hv with
    | tupleStruct hv =>
      cases ha
      obtain ⟨k1, k2, k3, k4, k5⟩ := simple_segments h hv (fun w hw h => ht (.tupleStruct hw h))
        (fun w hw h => hn (.tupleStruct hw h)) hs
      refine ⟨?_, .tupleStruct _, k2, .tupleStruct k3, ?_, ?_⟩
      · rw [readPath, List.take_of_length_le (by rw [List.length_map, hss _ hs hv]; exact Nat.le_refl _), k1]
        rfl
      · intro h
        cases h with
        | tupleStruct hw h => exact k4 _ hw h
      · intro h
        cases h with
        | tupleStruct hw h => exact k5 _ hw h
        | here h => cases h
  | newtype _ ih =>
    cases hv with
    | newtypeStruct hv =>
      cases ha with
      | newtype ha =>
        obtain ⟨k1, k2, k3, k4, k5, k6⟩ := ih h hv (fun h => ht (.newtypeStruct h))
          (fun h => hn (.newtypeStruct h)) ha hss
        refine ⟨?_, .newtype k2, k3, .newtypeStruct k4, ?_, ?_⟩
        · rw [readPath, k1]; rfl
        · intro h; cases h with | newtypeStruct h => exact k5 h
        · intro h
          cases h with
          | newtypeStruct h => exact k6 h
          | here h => cases h with | newtypeStruct h => exact k6 (.here h)

/-- The parts of the request that is sent. -/
theorem simple_ser (m : Method) {e : EntryPoint} {p q h : Option Val} {tp tq th : Option Ty}
    (h1 : ∀ t, tp = some t → ∃ ts, TupleTy t ts ∧ ts.length = e.countP (· = Seg.var) ∧
      ∀ u ∈ ts, SimpleTy u)
    (h2 : tp = none → Seg.var ∉ e ∧ tq = none)
    (h3 : ∀ t, tq = some t → ∃ ts, t = .struct ts ∧ DistinctNames ts ∧ ∀ f ∈ ts, SimpleField f.2)
    (h4 : ∀ t, th = some t → ∃ ts, t = .struct ts ∧ DistinctNames ts ∧
      (∀ f ∈ ts, SimpleField f.2 ∧ LowerName f.1) ∧ ¬ Declared ts "content-length".toList)
    (p1 : ∀ t, tp = some t → ∃ w, p = some w ∧ HasTy w t) (p2 : tp = none → p = none)
    (q1 : ∀ t, tq = some t → ∃ w, q = some w ∧ HasTy w t) (q2 : tq = none → q = none)
    (g1 : ∀ t, th = some t → ∃ w, h = some w ∧ HasTy w t) (g2 : th = none → h = none) (body : Bytes) :
    ∃ ss query own, ArgTexts (.struct (requestFields p q h)) ss ∧ ss.length = varCount e ∧
      requestQuery q = .ok query ∧ requestHeaders h = .ok own ∧ AsciiNames own ∧
      serRequest m e (.struct (requestFields p q h)) body =
        .ok { method := m
              target := joinTarget ((instantiate e ss).foldl pushSegment ['/']) query
              headers := own ++ [contentLength body], body } := by
  have l : (requestFields p q h).lookup "path".toList = p := by
    cases p <;> cases q <;> cases h <;> rfl
  obtain ⟨query, k2⟩ := simple_query_sent h3 q1 q2
  obtain ⟨own, k3, k4⟩ := simple_header_sent h4 g1 g2
  have k1 : ∃ ss, ArgTexts (.struct (requestFields p q h)) ss ∧ ss.length = varCount e ∧
      requestPath e p = .ok ((instantiate e ss).foldl pushSegment ['/']) := by
    cases tp with
    | none =>
      cases p2 rfl
      refine ⟨[], .none l, ?_, by rw [requestPath, if_neg (h2 rfl).1]⟩
      rw [varCount_eq_countP]
      refine (List.countP_eq_zero.2 fun x hx hx' => (h2 rfl).1 ?_).symm
      rw [← of_decide_eq_true hx']
      exact hx
    | some t =>
      obtain ⟨w, rfl, hw⟩ := p1 t rfl
      obtain ⟨ts, ht, hl, hs⟩ := h1 t rfl
      obtain ⟨vs, ha, hvs⟩ := tuple_typed ht hw
      obtain ⟨hlen, ss, hss⟩ := args_sent hs hvs
      refine ⟨ss, .args l ha hss, ?_, ?_⟩
      · rw [← (PathSer.writes_of_sent hss).length, hlen, hl, varCount_eq_countP]
      · rw [requestPath]
        exact (C69_path e _ w).1 vs ss (argTuple_pathArgs ha) hss (by rw [hlen, hl, varCount_eq_countP])
  obtain ⟨ss, k0, kl, k1⟩ := k1
  refine ⟨ss, query, own, k0, kl, k2, k3, k4, ?_⟩
  rw [C23_in_order, if_neg, requestOf, k1, k2, k3]
  · cases query <;> rfl
  · rintro ⟨rfl, hq⟩
    refine hq (q2 ?_)
    cases tp with
    | none => exact (h2 rfl).2
    | some t => obtain ⟨w, hw, -⟩ := p1 t rfl; cases hw

theorem sentAs_det {v : Val} {s s' : Str} (h : SentAs v s) (h' : SentAs v s') : s = s' := by
  induction h with
  | newtypeStruct _ ih => cases h' with | newtypeStruct h' => exact ih h'
  | newtypeVariant _ ih => cases h' with | newtypeVariant h' => exact ih h'
  | _ => cases h'; rfl

theorem sentAll_det {vs : List Val} {ss ss' : List Str} (h : SentAll vs ss) (h' : SentAll vs ss') :
    ss = ss' := by
  induction h generalizing ss' with
  | nil => cases h'; rfl
  | cons h _ ih => cases h' with | cons h' hs' => rw [sentAs_det h h', ih hs']

theorem argTexts_unique {v : Val} {ss ss' : List Str} (h : ArgTexts v ss) (h' : ArgTexts v ss') :
    ss = ss' := by
  cases h with
  | none h =>
    cases h' with
    | none => rfl
    | args h' => rw [h] at h'; cases h'
  | args h ha hs =>
    cases h' with
    | none h' => rw [h] at h'; cases h'
    | args h' ha' hs' =>
      rw [h] at h'
      cases h'
      obtain rfl := argTuple_unique ha ha'
      exact sentAll_det hs hs'

omit [LawfulFloatText] in
theorem garbled_parts (p q h : Option Val) :
    garbled (.struct (requestFields p q h)) = .struct (requestFields (p.map garbledPath) q h) := by
  cases p <;> cases q <;> cases h <;> rfl

theorem query_chars {q : Option Val} {query : Option Str} (h : requestQuery q = .ok query) :
    ∀ q ∈ query, ∀ c ∈ q, QueryChar c := by
  cases q with
  | none => cases h; intro q hq; cases hq
  | some v =>
    obtain ⟨text, htext, h⟩ := Res.bind_ok_eq h
    cases h
    intro q hq
    cases hq
    exact serQuery_chars htext

omit [LawfulFloatText] in
theorem not_true_parts {p q h : Option Val} (ht : ¬ HasTrue (.struct (requestFields p q h))) :
    (∀ w, p = some w → ¬ HasTrue w) ∧ (∀ w, q = some w → ¬ HasTrue w) ∧
      ∀ w, h = some w → ¬ HasTrue w := by
  refine ⟨?_, ?_, ?_⟩ <;> rintro w rfl hw <;>
    exact ht (.struct (by simp [requestFields, optField]; first | exact .inl rfl | exact .inr (.inl rfl) | exact .inr (.inr rfl)) hw)

/-- **C119.** One server: a request of a simple type without `true` whose path a URL can carry is sent and
arrives, whatever the body is and whatever further headers are added, and what is read is the request with
its path garbled. -/
theorem C119_hop (o : UrlOracle) (m : Method) (e : EntryPoint) (hpc : PlainConsts e) (t : Ty)
    (hty : SimpleRequest e t) (v : Val) (hv : HasTy v t) (hn : ¬ HasNaN v) (ht : ¬ HasTrue v)
    (hc : PathCarried e v) (body : Bytes) :
    ∃ r target segs, serRequest m e v body = .ok r ∧ r.method = m ∧ r.body = body ∧
      parseTarget o r.target = some target ∧ target.segs = some segs ∧ Matches e segs ∧
      ∀ hs, hs ≠ [] → AsciiNames hs →
        (∀ ts u, StructOf t ts → ts.lookup "header".toList = some u →
          askedFor u hs = askedFor u r.headers) →
        deRequest e t target hs = .ok (garbled v) := by
  cases hty with
  | @struct tp tq th h1 h2 h3 h4 =>
    obtain ⟨p, q, h, rfl, p1, p2, q1, q2, g1, g2⟩ := parts_typed hv
    obtain ⟨ss, query, own, k0, kl, k2, k3, k4, hser⟩ :=
      simple_ser m h1 h2 h3 h4 p1 p2 q1 q2 g1 g2 body
    obtain ⟨ss', k0', hc⟩ := hc
    obtain rfl := argTexts_unique k0 k0'
    have hnn := (RequestParts.struct p q h tp tq th).noNaN hn
    obtain ⟨t1, t2, t3⟩ := not_true_parts ht
    have hm := matches_instantiate hpc ss
    refine ⟨_, _, _, hser, rfl, rfl, parseTarget_push o hc query (query_chars k2), rfl, hm, ?_⟩
    intro hs hne hna hsame
    rw [garbled_parts, deRequest_parts _ _ _ hne]
    · refine ⟨?_, ?_, ?_⟩
      · rintro w t hw rfl
        obtain ⟨x, rfl, hx⟩ := p1 t rfl
        cases hw
        obtain ⟨ts, htt, hl, hs'⟩ := h1 t rfl
        have l : (requestFields (some x) q h).lookup "path".toList = some x := by
          cases q <;> cases h <;> rfl
        cases k0 with
        | none h0 => rw [l] at h0; cases h0
        | args h0 ha hss =>
          rw [l] at h0
          cases h0
          have hr := (simple_readPath htt hs' hx (t1 _ rfl) (hnn _ (.inl rfl)) ha hss).1
          rw [C63_path_read e _ hm, (matches_sent hpc ss kl).2, hr]
      · rintro w t rfl rfl
        obtain ⟨w', hw', hwt⟩ := q1 t rfl
        cases hw'
        obtain ⟨text, htext, hq⟩ := Res.bind_ok_eq k2
        cases hq
        obtain ⟨ts, hts, hd, -⟩ := h3 t rfl
        refine (C108_query w t hwt (by subst hts; exact hd) (hnn w (.inr (.inl rfl))) text htext).2 ?_
        exact (simple_query_intact h3 q1 q2 (fun w hw => hnn w (.inr (.inl hw)))).2 t2 w rfl
      · rintro w t rfl rfl
        obtain ⟨w', hw', hwt⟩ := g1 t rfl
        cases hw'
        have hl : (requestFields tp tq (some t)).lookup "header".toList = some t := by
          cases tp <;> cases tq <;> rfl
        obtain ⟨hst, hnd, hcl⟩ := (simple_requestTy (tp := tp) h3 h4).header _ t (.struct _) hl
        refine (header_part_iff hwt hst hnd hcl (hnn w (.inr (.inr rfl))) body k3 k4 hna
          (hsame _ t (.struct _) hl)).2 ?_
        exact (simple_header_intact h4 g1 g2 (fun w hw => hnn w (.inr (.inr hw)))).2 t3 w rfl
    · cases tp with
      | none => cases p2 rfl; exact .inl ⟨rfl, rfl⟩
      | some t => obtain ⟨x, rfl, -⟩ := p1 t rfl; exact .inr ⟨_, _, rfl, rfl⟩
    · cases tq with
      | none => cases q2 rfl; exact .inl ⟨rfl, rfl⟩
      | some t => obtain ⟨x, rfl, -⟩ := q1 t rfl; exact .inr ⟨_, _, rfl, rfl⟩
    · cases th with
      | none => cases g2 rfl; exact .inl ⟨rfl, rfl⟩
      | some t => obtain ⟨x, rfl, -⟩ := g1 t rfl; exact .inr ⟨_, _, rfl, rfl⟩

/-- What a request with its path garbled has in common with the request. -/
theorem garbled_kept {e : EntryPoint} {t : Ty} (hty : SimpleRequest e t) {v : Val} (hv : HasTy v t)
    (hn : ¬ HasNaN v) (ht : ¬ HasTrue v) :
    HasTy (garbled v) t ∧ ¬ HasNaN (garbled v) ∧ ¬ HasTrue (garbled v) ∧
      ∀ ss, ArgTexts v ss → ArgTexts (garbled v) (ss.map garbledText) := by
  cases hty with
  | @struct tp tq th h1 h2 h3 h4 =>
    obtain ⟨p, q, h, rfl, p1, p2, q1, q2, g1, g2⟩ := parts_typed hv
    have hnn := (RequestParts.struct p q h tp tq th).noNaN hn
    obtain ⟨t1, t2, t3⟩ := not_true_parts ht
    rw [garbled_parts]
    cases tp with
    | none =>
      cases p2 rfl
      refine ⟨hv, hn, ht, fun ss hss => ?_⟩
      have l : (requestFields none q h).lookup "path".toList = none := by
        cases q <;> cases h <;> rfl
      cases hss with
      | none => exact .none l
      | args h0 => rw [l] at h0; cases h0
    | some t =>
      obtain ⟨x, rfl, hx⟩ := p1 t rfl
      obtain ⟨ts, htt, hl, hs'⟩ := h1 t rfl
      obtain ⟨vs, ha, hvs⟩ := tuple_typed htt hx
      obtain ⟨-, ss, hss⟩ := args_sent hs' hvs
      have key := fun ss hss => simple_readPath htt hs' hx (t1 _ rfl) (hnn _ (.inl rfl)) ha (ss := ss) hss
      obtain ⟨-, k1, -, k3, k4, k5⟩ := key ss hss
      have hv' : HasTy (.struct (requestFields (some (garbledPath x)) q h))
          (.struct (requestFields (some t) tq th)) := by
        cases hv with
        | struct hv =>
          cases hv with
          | cons _ hv => exact .struct (.cons k3 hv)
      refine ⟨hv', ?_, ?_, ?_⟩
      · intro hx
        cases hx with
        | here hx => cases hx
        | struct hm hw =>
          rcases List.mem_cons.1 hm with hm | hm
          · cases hm; exact k5 hw
          · exact hn (.struct (List.mem_cons_of_mem _ hm) hw)
      · intro hx
        cases hx with
        | struct hm hw =>
          rcases List.mem_cons.1 hm with hm | hm
          · cases hm; exact k4 hw
          · exact ht (.struct (List.mem_cons_of_mem _ hm) hw)
      · intro ss hss
        have l : ∀ y, (requestFields (some y) q h).lookup "path".toList = some y := by
          intro y; cases q <;> cases h <;> rfl
        cases hss with
        | none h0 => rw [l] at h0; cases h0
        | args h0 ha' hss =>
          rw [l] at h0
          cases h0
          obtain rfl := argTuple_unique ha ha'
          exact .args (l _) k1 (key _ hss).2.2.1

omit [LawfulFloatText] in
theorem hasTys_mem {vs : List Val} {ts : List Ty} (h : HasTys vs ts) {v : Val} (hv : v ∈ vs) :
    ∃ t ∈ ts, HasTy v t := by
  induction vs generalizing ts with
  | nil => cases hv
  | cons x vs ih =>
    cases h with
    | cons h hs =>
      rcases List.mem_cons.1 hv with rfl | hv
      · exact ⟨_, List.mem_cons_self, h⟩
      · obtain ⟨t, ht, h⟩ := ih hs hv
        exact ⟨t, List.mem_cons_of_mem _ ht, h⟩

omit [LawfulFloatText] in
theorem simple_lost {t : Ty} (h : SimpleTy t) {v : Val} (hv : HasTy v t) (ht : HasTrue v) : Lost v := by
  induction h generalizing v with
  | scalar h =>
    cases ht with
    | true => exact .true
    | _ => cases hv; cases h
  | str => cases hv; cases ht
  | newtype _ ih =>
    cases hv with
    | newtypeStruct hv => cases ht with | newtypeStruct ht => exact .newtype (ih hv ht)

omit [LawfulFloatText] in
theorem simple_lost_field {t : Ty} (h : SimpleField t) {v : Val} (hv : HasTy v t) (ht : HasTrue v) :
    Lost v := by
  cases h with
  | single h => exact simple_lost h hv ht
  | option h =>
    cases hv with
    | none => cases ht
    | some hv => cases ht with | some ht => exact .some (simple_lost h hv ht)

/-- **C119.** A request of a simple type with a `true` in it arrives nowhere: whatever is sent with it, no
procedure reads anything from it. -/
theorem C119_true_stops (o : UrlOracle) (t : Ty) (h : Hop) (hty : SimpleRequest h.entry t) (v : Val)
    (hv : HasTy v t) (ht : HasTrue v) (w : Val) : ¬ Hopped o t h v w := by
  rintro ⟨body, r, target, segs, hs, hser, hpt, hsegs, hm, -, hna, hsame, hde⟩
  obtain ⟨m, e⟩ := h
  simp only at hty hser hm hde
  have hw := C117_request_typed e t (simple_wellNamed hty) target segs hsegs hm hs hna w hde
  cases hty with
  | @struct tp tq th h1 h2 h3 h4 =>
    obtain ⟨p, q, h, rfl, p1, p2, q1, q2, g1, g2⟩ := parts_typed hv
    obtain ⟨p', q', h', rfl, p1', -, q1', -, g1', -⟩ := parts_typed hw
    obtain ⟨ss, query, own, k0, kl, k2, k3, k4, hser'⟩ := simple_ser m h1 h2 h3 h4 p1 p2 q1 q2 g1 g2 body
    rw [hser] at hser'
    cases hser'
    obtain ⟨segs', j1, j2, j3⟩ := parseTarget_pushed o (instantiate e ss) query (query_chars k2)
    rw [hpt] at j2
    cases j2
    cases hsegs
    obtain ⟨d1, d2, d3⟩ := deRequest_gives hde
    cases ht with
    | @struct n x _ hmem hx =>
      rw [requestFields, List.mem_append, List.mem_append] at hmem
      rcases hmem with (hmem | hmem) | hmem
      · cases tp with
        | none => cases p2 rfl; cases hmem
        | some t =>
          obtain ⟨y, rfl, hy⟩ := p1 t rfl
          obtain ⟨z, hz, -⟩ := p1' t rfl
          cases List.mem_singleton.1 hmem
          obtain ⟨ts, htt, hl, hs'⟩ := h1 t rfl
          have l : (requestFields (some x) q h).lookup "path".toList = some x := by
            cases q <;> cases h <;> rfl
          cases k0 with
          | none h0 => rw [l] at h0; cases h0
          | @args _ _ vs _ h0 ha hss =>
            rw [l] at h0
            cases h0
            have hlost : ∃ a ∈ vs, Lost a := by
              obtain ⟨a, ham, hat⟩ := (tuple_true ha).1 hx
              obtain ⟨vs', ha', hvs⟩ := tuple_typed htt hy
              obtain rfl := argTuple_unique ha ha'
              refine ⟨a, ham, ?_⟩
              obtain ⟨u, hu, hau⟩ := hasTys_mem hvs ham
              exact simple_lost (hs' u hu) hau hat
            obtain ⟨ts', hts', hinv⟩ := dePath_argTuple ha hy
            have hl2 : ts'.length = varCount e := by
              rw [← HasTys_length hts', (PathSer.writes_of_sent hss).length, kl]
            have := hinv e (some segs) (by
              rw [C63_path_read_exactly e _ hm ts' hl2, readSegments_pairs_lost hss hts'
                (variables_pairs hm kl (j3 (by rw [instantiate_length, matches_length hm]))) hlost])
            rw [d1 z t hz rfl] at this
            cases this
      · cases tq with
        | none => cases q2 rfl; cases hmem
        | some t =>
          obtain ⟨y, rfl, hy⟩ := q1 t rfl
          obtain ⟨z, hz, -⟩ := q1' t rfl
          cases List.mem_singleton.1 hmem
          obtain ⟨ts, rfl, hd, hs'⟩ := h3 t rfl
          cases hy with
          | @struct fs _ hy =>
            obtain ⟨es, he⟩ := fields_written (present := SentOpt) (absent := Omitted) .none
              (P := fun _ => True) hs' (fun v t h hv _ => by
                obtain ⟨s, hs⟩ := simple_sent h hv
                exact ⟨s, .sent hs⟩) (fun _ _ h => .some h) hy (fun _ _ _ => trivial) (fun _ _ => trivial)
            have hlost : ∃ n a, (n, a) ∈ fs ∧ Lost a := by
              cases hx with
              | struct ham hat =>
                obtain ⟨u, hu, hau⟩ := HasTyFields_type hy ham
                exact ⟨_, _, ham, simple_lost_field (hs' _ hu) hau hat⟩
            obtain ⟨text, ht1, ht2⟩ := C64_query_lost fs ts es he hy hd hlost
            rw [requestQuery, ht1] at k2
            cases k2
            rw [d2 z _ hz rfl] at ht2
            cases ht2
      · cases th with
        | none => cases g2 rfl; cases hmem
        | some t =>
          obtain ⟨y, rfl, hy⟩ := g1 t rfl
          obtain ⟨z, hz, -⟩ := g1' t rfl
          cases List.mem_singleton.1 hmem
          obtain ⟨ts, rfl, hd, hs', hcl⟩ := h4 t rfl
          have hlk : (requestFields tp tq (some (Ty.struct ts))).lookup "header".toList =
              some (.struct ts) := by cases tp <;> cases tq <;> rfl
          obtain ⟨hst, hnd, hcl'⟩ := (simple_requestTy (tp := tp) h3 h4).header _ _ (.struct _) hlk
          have hask := hsame _ _ (.struct _) hlk
          cases hy with
          | @struct fs _ hy =>
            obtain ⟨es, he⟩ := fields_written (present := SentHeader) (absent := Omitted) .none
              (P := fun _ => True) (fun f hf => (hs' f hf).1) (fun v t h hv _ => by
                obtain ⟨s, hs⟩ := simple_sent h hv
                exact ⟨_, .sent hs⟩) (fun _ _ h => .some h) hy (fun _ _ _ => trivial) (fun _ _ => trivial)
            have hlost : ∃ n a, (n, a) ∈ fs ∧ Lost a := by
              cases hx with
              | struct ham hat =>
                obtain ⟨u, hu, hau⟩ := HasTyFields_type hy ham
                exact ⟨_, _, ham, simple_lost_field (hs' _ hu).1 hau hat⟩
            obtain ⟨own', ho1, ho2⟩ := C64_header_lost fs ts es he hy hd (fun f hf => (hs' f hf).2) hlost
            rw [requestHeaders, ho1 []] at k3
            cases k3
            have hlow : ts.map Prod.fst = (names (.struct ts)).map lowerText := by
              rw [names, List.map_map]
              exact (List.map_congr_left fun f hf => lowerText_lower (hs' f hf).2).symm
            have hfil : (hs.filter fun h => decide (Declared ts (nameText h.1))) = own' := by
              obtain ⟨own'', hoe, hwr⟩ := serHeaders_written (ho1 [])
              rw [← List.append_cancel_left hoe] at hwr
              have hself := askedFor_own hwr (.struct hy) hst k4
              have hne : nameText (contentLength body).1 ∉ (names (.struct ts)).map lowerText := hcl'
              have e : (fun h : Header => decide (Declared ts (nameText h.1))) =
                  fun h => decide (nameText h.1 ∈ (names (.struct ts)).map lowerText) := by
                funext h
                unfold Declared
                simp only [hlow]
              rw [e]
              unfold askedFor at hself hask
              rw [hask, List.filter_append, List.nil_append, hself,
                List.filter_cons_of_neg (by simpa using hne), List.filter_nil, List.append_nil]
            have := ho2 hs hna hfil
            rw [d3 z _ hz rfl] at this
            cases this

theorem simple_headers_ne {m : Method} {e : EntryPoint} {t : Ty} (hty : SimpleRequest e t) {v : Val}
    (hv : HasTy v t) {body : Bytes} {r : Request} (h : serRequest m e v body = .ok r) : r.headers ≠ [] := by
  cases hty with
  | @struct tp tq th g1 g2 g3 g4 =>
    obtain ⟨p, q, hh, rfl, p1, p2, q1, q2, e1, e2⟩ := parts_typed hv
    obtain ⟨ss, query, own, -, -, -, -, -, hser⟩ := simple_ser m g1 g2 g3 g4 p1 p2 q1 q2 e1 e2 body
    rw [h] at hser
    cases hser
    simp

/-- One server, as a relation. -/
theorem hopped_iff (o : UrlOracle) (t : Ty) (h : Hop) (hpc : PlainConsts h.entry)
    (hty : SimpleRequest h.entry t) {v : Val} (hv : HasTy v t) (hn : ¬ HasNaN v) (ht : ¬ HasTrue v)
    (hc : PathCarried h.entry v) (w : Val) : Hopped o t h v w ↔ w = garbled v := by
  constructor
  · rintro ⟨body, r, target, segs, hs, hser, hpt, hsegs, hm, hne, hna, hsame, hde⟩
    obtain ⟨r', target', segs', h1, -, -, h4, h5, h6, h7⟩ :=
      C119_hop o h.method h.entry hpc t hty v hv hn ht hc body
    rw [hser] at h1
    cases h1
    rw [hpt] at h4
    cases h4
    rw [h7 hs hne hna hsame] at hde
    cases hde
    rfl
  · rintro rfl
    obtain ⟨r, target, segs, h1, -, -, h4, h5, h6, h7⟩ :=
      C119_hop o h.method h.entry hpc t hty v hv hn ht hc []
    obtain ⟨r', k1, -, -, k2, -⟩ := C117_simple_arrives o h.method h.entry hpc t hty v hv hn []
    rw [h1] at k1
    cases k1
    have hne := simple_headers_ne hty hv h1
    exact ⟨[], r, target, segs, r.headers, h1, h4, h5, h6, hne, k2, fun _ _ _ _ => rfl,
      h7 r.headers hne k2 fun _ _ _ _ => rfl⟩

/-- **C119.** Any number of servers, each of which calls the next one with the request that it has read: a
request of a simple type without `true`, whose path a URL can carry at each of them, arrives at the last
one, as the request whose path has been garbled as many times; and nothing else arrives there. -/
theorem C119_chain (o : UrlOracle) (t : Ty) (hops : List Hop) (hpc : ∀ h ∈ hops, PlainConsts h.entry)
    (hty : ∀ h ∈ hops, SimpleRequest h.entry t) (v : Val) (hv : HasTy v t) (hn : ¬ HasNaN v)
    (ht : ¬ HasTrue v) (hc : ∀ h ∈ hops, PathCarried h.entry v) (w : Val) :
    Relayed o t hops v w ↔ w = garbled^[hops.length] v := by
  induction hops generalizing v with
  | nil => exact ⟨fun h => by cases h; rfl, fun h => by rw [h]; exact .nil _⟩
  | cons x hops ih =>
    have hx := List.forall_mem_cons.1 hpc
    have hx' := List.forall_mem_cons.1 hty
    have hx'' := List.forall_mem_cons.1 hc
    obtain ⟨k1, k2, k3, k4⟩ := garbled_kept hx'.1 hv hn ht
    have ih := ih hx.2 hx'.2 (garbled v) k1 k2 k3 fun h hh => by
      obtain ⟨ss, hs, hcs⟩ := hx''.2 h hh
      exact ⟨_, k4 ss hs, carried_garbled (hx.2 h hh) hcs⟩
    have hh := hopped_iff o t x hx.1 hx'.1 hv hn ht hx''.1
    rw [List.length_cons, Function.iterate_succ_apply, ← ih]
    constructor
    · intro h
      cases h with
      | cons h hs => rw [(hh _).1 h] at hs; exact hs
    · exact fun h => .cons ((hh _).2 rfl) h

/-- **C119.** So the arguments of its path are garbled as many times as there are servers. -/
theorem C119_arguments (o : UrlOracle) (t : Ty) (hops : List Hop) (hpc : ∀ h ∈ hops, PlainConsts h.entry)
    (hty : ∀ h ∈ hops, SimpleRequest h.entry t) (v : Val) (hv : HasTy v t) (hn : ¬ HasNaN v)
    (ht : ¬ HasTrue v) (hc : ∀ h ∈ hops, PathCarried h.entry v) (w : Val) (hw : Relayed o t hops v w)
    (ss : List Str) (hs : ArgTexts v ss) : ArgTexts w (ss.map garbledText^[hops.length]) := by
  rw [C119_chain o t hops hpc hty v hv hn ht hc w] at hw
  subst hw
  clear hpc hc
  induction hops generalizing v ss with
  | nil => simpa using hs
  | cons x hops ih =>
    have hx' := List.forall_mem_cons.1 hty
    obtain ⟨k1, k2, k3, k4⟩ := garbled_kept hx'.1 hv hn ht
    have := ih hx'.2 (garbled v) k1 k2 k3 _ (k4 ss hs)
    rw [List.map_map] at this
    exact this

/-- **C119.** And it arrives as it was sent, after one or more servers, if and only if its arguments are in
ASCII without tabs and line breaks. -/
theorem C119_unchanged (o : UrlOracle) (t : Ty) (hops : List Hop) (hne : hops ≠ [])
    (hpc : ∀ h ∈ hops, PlainConsts h.entry) (hty : ∀ h ∈ hops, SimpleRequest h.entry t) (v : Val)
    (hv : HasTy v t) (hn : ¬ HasNaN v) (ht : ¬ HasTrue v) (hc : ∀ h ∈ hops, PathCarried h.entry v) :
    Relayed o t hops v v ↔ ∀ ss, ArgTexts v ss → ∀ s ∈ ss, Ascii s ∧ NoTabNl s := by
  constructor
  · intro h ss hs s hm
    have h1 := C119_arguments o t hops hpc hty v hv hn ht hc v h ss hs
    have h2 := argTexts_unique hs h1
    have h3 : garbledText^[hops.length] s = s :=
      List.map_inj_left.1 (show ss.map garbledText^[hops.length] = ss.map id by
        rw [List.map_id]; exact h2.symm) s hm
    obtain ⟨n, hl⟩ : ∃ n, hops.length = n + 1 := by
      cases hops with
      | nil => exact absurd rfl hne
      | cons x hops => exact ⟨_, rfl⟩
    rw [hl] at h3
    have hnt : NoTabNl s := by
      rw [← h3, Function.iterate_succ_apply']
      exact garbled_noTabNl _
    refine ⟨?_, hnt⟩
    have hg := C119_growth (n + 1) s hnt
    rw [h3, utf8_length] at hg
    have hf : foreignBytes s = 0 := by
      have : 2 ≤ 2 ^ (n + 1) := by rw [Nat.pow_succ]; have := Nat.one_le_two_pow (n := n); omega
      by_contra hf
      have := Nat.mul_le_mul_right (foreignBytes s) this
      omega
    intro c hc'
    by_contra hlt
    refine absurd hf (Nat.pos_iff_ne_zero.1 (List.countP_pos_iff.2 ?_))
    obtain ⟨b, hb⟩ := List.exists_mem_of_ne_nil _ (utf8Char_ne_nil c)
    refine ⟨b, List.mem_flatMap.2 ⟨c, hc', hb⟩, ?_⟩
    rw [decide_eq_true_eq]
    by_contra hlt'
    have := mem_utf8Char_ascii hb (by omega)
    rw [this, charOfByte_toNat] at hlt
    exact hlt (by omega)
  · intro h
    obtain ⟨x, hx⟩ := List.exists_mem_of_ne_nil _ hne
    have hfix : garbled v = v := by
      obtain ⟨ss, hs, hcs⟩ := hc x hx
      obtain ⟨r, target, segs, h1, -, -, h4, h5, h6, h7⟩ :=
        C119_hop o x.method x.entry (hpc x hx) t (hty x hx) v hv hn ht (hc x hx) []
      obtain ⟨r', k1, -, -, k2, k3⟩ :=
        C117_simple_arrives o x.method x.entry (hpc x hx) t (hty x hx) v hv hn []
      rw [h1] at k1
      cases k1
      have hne' := simple_headers_ne (hty x hx) hv h1
      obtain ⟨target', segs', j1, j2, -, j4⟩ := (k3 r.headers hne' k2 fun _ _ _ _ => rfl).2
        ⟨ht, ss, hs, h ss hs, hcs⟩
      rw [h4] at j1
      cases j1
      rw [h7 r.headers hne' k2 fun _ _ _ _ => rfl] at j4
      exact Res.ok.inj j4
    rw [C119_chain o t hops hpc hty v hv hn ht hc]
    exact (Function.iterate_fixed hfix _).symm

/-! ### Responses -/

omit [LawfulFloatText] in
theorem simple_not_omitted {t : Ty} (h : SimpleTy t) {v : Val} (hv : HasTy v t) : ¬ Omitted v := by
  induction h generalizing v with
  | scalar h => intro ho; cases ho <;> cases hv <;> cases h
  | str => cases hv; nofun
  | newtype _ ih =>
    cases hv with
    | newtypeStruct hv => intro ho; cases ho with | newtypeStruct ho => exact ih hv ho

omit [LawfulFloatText] in
/-- Headers of simple types that arrive are those that were sent. -/
theorem simple_header_same {th : Option Ty} (h : SimpleHeader th) {x : Option Val}
    (g1 : ∀ t, th = some t → ∃ w, x = some w ∧ HasTy w t) (g2 : th = none → x = none)
    (hn : ∀ w, x = some w → ¬ HasNaN w) {ws : List (Str × Val)} {inside : Bool}
    (ha : FieldsArrive (AnswerArrives inside) (optField "header".toList x) ws) :
    ws = optField "header".toList x := by
  cases th with
  | none => cases g2 rfl; cases ha; rfl
  | some t =>
    obtain ⟨v, rfl, hv⟩ := g1 t rfl
    obtain ⟨ts, rfl, -, hs, -⟩ := h t rfl
    cases ha with
    | cons ha hnil =>
      cases hnil
      generalize hk : "header".toList = k at ha
      cases ha with
      | status => exact absurd hk (by decide)
      | @header _ w ha =>
        cases hv with
        | @struct fs _ hv =>
          cases ha with
          | @struct _ ws ha =>
            have hnf : ∀ n y, (n, y) ∈ fs → ¬ HasNaN y := fun n y hm hy => hn _ rfl (.struct hm hy)
            have : ws = fs := by
              clear hn g1 g2 h hk
              induction ha generalizing ts with
              | nil => rfl
              | @cons n a b fs ws ha _ ih =>
                cases hv with
                | cons hv hvs =>
                  rw [ih _ (fun f hf => hs f (List.mem_cons_of_mem _ hf)) hvs
                    fun n y hm => hnf n y (List.mem_cons_of_mem _ hm)]
                  have hs0 := hs _ List.mem_cons_self
                  have hn0 := hnf _ _ List.mem_cons_self
                  cases ha with
                  | named _ ha =>
                    cases ha with
                    | same ha => rw [same_eq ha hn0]
                    | collapsed ho =>
                      cases hs0.1 with
                      | single h1 => cases hv with | some hv => cases h1 with | scalar h1 => cases h1
                      | option h1 =>
                        cases hv with
                        | some hv => exact absurd ho (simple_not_omitted h1 hv)
                  | unnamed hl => exact absurd hs0.2 hl
                  | none => rfl
            rw [this, ← hk]
            rfl

omit [LawfulFloatText] in
theorem simple_response_same {t : Ty} (hty : SimpleResponse t) {v : Val} (hv : HasTy v t)
    (hn : ¬ HasNaN v) {w : Val} (ha : ResponseArrives false v w) : w = v := by
  induction hty generalizing v w with
  | @struct t th hh =>
    cases hv with
    | struct hv =>
      cases hv with
      | cons h1 h2 =>
        obtain ⟨x, rfl, g1, g2⟩ := header_opt h2
        cases ha with
        | struct ha =>
          cases ha with
          | cons ha hs =>
            rw [simple_header_same hh g1 g2 (fun w hw hx => by
              subst hw
              exact hn (.struct (.tail _ (.head _)) hx)) hs]
            generalize hk : "status".toList = k at ha
            cases ha with
            | header => exact absurd hk (by decide)
            | status ha => cases ha; rfl
  | enum _ hvs =>
    cases hv with
    | unitVariant hm => cases ha; rfl
    | newtypeVariant hm _ => exact nomatch hvs _ hm
    | tupleVariant hm _ => exact nomatch hvs _ hm
    | structVariant hm hv =>
      have := hvs _ hm
      generalize hx : VTy.struct _ = x at this
      cases this with
      | unit => cases hx
      | struct hh =>
        cases hx
        obtain ⟨x, rfl, g1, g2⟩ := header_opt hv
        cases ha with
        | variant ha =>
          rw [simple_header_same hh g1 g2 (fun w hw hx => by
            subst hw
            exact hn (.structVariant (.head _) hx)) ha]
  | newtype _ ih =>
    cases hv with
    | newtypeStruct hv =>
      cases ha with
      | newtypeStruct ha => rw [ih hv (fun h => hn (.newtypeStruct h)) ha]

omit [LawfulFloatText] in
theorem simple_not_around {t : Ty} (hty : SimpleResponse t) {v : Val} (hv : HasTy v t) (m : Str) :
    ¬ Around v m := by
  induction hty generalizing v with
  | struct => cases hv; nofun
  | enum _ hvs =>
    cases hv with
    | unitVariant hm => nofun
    | newtypeVariant hm _ => exact nomatch hvs _ hm
    | tupleVariant hm _ => exact nomatch hvs _ hm
    | structVariant hm hv => nofun
  | newtype _ ih =>
    cases hv with
    | newtypeStruct hv => intro h; cases h with | newtypeStruct h => exact ih hv h

/-- One server on the way back. -/
theorem answered_iff {t : Ty} (hty : SimpleResponse t) {code : Nat} {hs : List Header} {v : Val}
    (hr : ReadsResponse code hs true t v) (hn : ¬ HasNaN v) (w : Val) :
    Handed t v w ↔ w = v ∧ ¬ HasTrue v ∧ ∃ n, (n, code) ∈ statusTable := by
  constructor
  · rintro ⟨body, r, hs', hser, hne, hna, hsame, hde⟩
    by_cases hc : ∃ n, (n, code) ∈ statusTable
    · obtain ⟨r', k1, k2, -, k4⟩ := (passed_back hty hr hn body).1 hc
      rw [hser] at k1
      cases k1
      have hasc : AsciiNames r.headers := by
        obtain ⟨n, htab⟩ := hc
        obtain ⟨s, hs0, -⟩ := status_of_table htab
        obtain ⟨own, h1, h2⟩ := (simple_response hty hr hn).1 s hs0
        have := sent_serResponse h1 body
        rw [hser] at this
        cases this
        exact Spec.AsciiNames.append h2 (contentLength_ascii body)
      have hv := response_typed hr
      have := simple_response_same hty hv hn ((C76_response v t hv (simple_responseTy hty) body r hser
        (fun m h => absurd h (simple_not_around hty hv m)) hasc).2 hs' hna hsame w hde)
      subst this
      exact ⟨rfl, (k4 hs' hne hna hsame).1 (k2 ▸ hde), hc⟩
    · rw [(passed_back hty hr hn body).2 fun n hm => hc ⟨n, hm⟩] at hser
      cases hser
  · rintro ⟨rfl, ht, hc⟩
    obtain ⟨r, k1, k2, -, k4⟩ := (passed_back hty hr hn []).1 hc
    obtain ⟨n, htab⟩ := hc
    obtain ⟨s, hs0, -⟩ := status_of_table htab
    obtain ⟨own, h1, h2⟩ := (simple_response hty hr hn).1 s hs0
    have := sent_serResponse h1 []
    rw [k1] at this
    cases this
    have ha : AsciiNames (own ++ [contentLength []]) := Spec.AsciiNames.append h2 (contentLength_ascii [])
    exact ⟨[], _, _, k1, by simp, ha, fun _ _ _ _ => rfl,
      k2 ▸ (k4 _ (by simp) ha fun _ _ _ _ => rfl).2 ht⟩

/-- **C119.** A response of a simple type that a server has read passes back through any number of servers,
this one included, if and only if its status is one of the 40 and there is no `true` in its headers; and
it never changes on the way. -/
theorem C119_back (t : Ty) (hty : SimpleResponse t) (code : Nat) (hs : List Header) (ha : AsciiNames hs)
    (v : Val) (hv : deResponse t code hs = .ok v) (hn : ¬ HasNaN v) (n : Nat) (w : Val) :
    HandedBack t n v w ↔ w = v ∧ (n = 0 ∨ ¬ HasTrue v ∧ ∃ s, (s, code) ∈ statusTable) := by
  have hi := answered_iff hty
    ((C83_response_read t (simpleResponse_wellNamed hty) code hs ha).ok_iff hv) hn
  induction n with
  | zero => exact ⟨fun h => by cases h; exact ⟨rfl, .inl rfl⟩, fun h => by rw [h.1]; exact .nil _⟩
  | succ n ih =>
    constructor
    · intro h
      cases h with
      | cons h h' =>
        obtain ⟨rfl, h2⟩ := (hi _).1 h
        exact ⟨(ih.1 h').1, .inr h2⟩
    · rintro ⟨rfl, h | h⟩
      · cases h
      · exact .cons ((hi _).2 ⟨rfl, h⟩) (ih.2 ⟨rfl, .inr h⟩)

/-- **C119.** A request in which there is a `true` does not get past the first server. -/
theorem C119_true (o : UrlOracle) (t : Ty) (hops : List Hop) (hne : hops ≠ [])
    (hty : ∀ h ∈ hops, SimpleRequest h.entry t) (v : Val) (hv : HasTy v t) (ht : HasTrue v) (w : Val) :
    ¬ Relayed o t hops v w := by
  intro h
  cases h with
  | nil => exact hne rfl
  | cons h _ => exact C119_true_stops o t _ (hty _ List.mem_cons_self) v hv ht _ h

end

/-! ### Examples -/

namespace ChainExamples

open PassOnExamples

/-- `C119_growth`: an é becomes two characters at the first server and four at the second; after ten
servers it has 2048 bytes. -/
example : garbledText "é".toList = "Ã©".toList ∧ garbledText "Ã©".toList = "Ã\u0083Â©".toList ∧
    (utf8 (garbledText^[10] "é".toList)).length = 2048 := by
  refine ⟨by decide, by decide, ?_⟩
  rw [C119_growth 10 _ (by unfold NoTabNl; decide)]
  decide

theorem exCarried [FloatText] {s : Str} (h : ¬ Dots s) (b : Bool) : PathCarried exReqEntry (exVal s b) := by
  refine ⟨[s], .args rfl (.tuple _) (.cons (.str s) .nil),
    by simp [exReqEntry, instantiate], ?_, .inr ⟨"users".toList, rfl, by decide⟩⟩
  intro x hx
  rcases List.mem_cons.1 hx with rfl | hx
  · decide
  · rw [List.mem_singleton.1 hx]; exact h

/-- The same server any number of times. -/
def exHops (m : Method) (n : Nat) : List Hop := List.replicate n ⟨m, exReqEntry⟩

/-- `C119_chain`: through two servers, `é` arrives as `Ã\u0083Â©` and as nothing else. -/
example (o : UrlOracle) (m : Method) (w : Val) : letI := toyFloat
    Relayed o exTy (exHops m 2) (exVal "é".toList false) w ↔ w = exVal "Ã\u0083Â©".toList false := by
  let := toyFloat
  have hm : ∀ h ∈ exHops m 2, h.entry = exReqEntry := fun h hh => by rw [List.eq_of_mem_replicate hh]
  have hg : garbled^[(exHops m 2).length] (exVal "é".toList false) = exVal "Ã\u0083Â©".toList false := by
    rfl
  rw [← hg]
  exact C119_chain o exTy (exHops m 2) (fun h hh => by rw [hm h hh]; exact exReq_consts)
    (fun h hh => by rw [hm h hh]; exact exTy_simple) _ (exVal_typed _ _) (exVal_noNaN _ _)
    (by rw [exVal_true]; decide) (fun h hh => by rw [hm h hh]; exact exCarried (by decide) _) w

/-- `C119_true`: with the flag, nothing arrives. -/
example (o : UrlOracle) (m : Method) (n : Nat) (s : Str) (w : Val) : letI := toyFloat
    ¬ Relayed o exTy (exHops m (n + 1)) (exVal s true) w := by
  let := toyFloat
  exact C119_true o exTy _ (by simp [exHops])
    (fun h hh => by rw [List.eq_of_mem_replicate hh]; exact exTy_simple) _ (exVal_typed _ _)
    ((exVal_true _ _).2 rfl) w

/-- `C119_back`: a response with status 404 and no flag passes back through any number of servers; one with
the flag through none. -/
example (n : Nat) : letI := toyFloat
    HandedBack PassBackExamples.exTy n (PassBackExamples.exVal 404 .none) (PassBackExamples.exVal 404 .none) ∧
      ∀ w, ¬ HandedBack PassBackExamples.exTy (n + 1) (PassBackExamples.exVal 404 (.some (.bool true))) w := by
  let := toyFloat
  obtain ⟨h1, h2⟩ := PassBackExamples.exRead 404 (by decide)
  constructor
  · refine (C119_back _ PassBackExamples.exTy_simple 404 _ (by unfold AsciiNames; decide) _ h2
      (PassBackExamples.exVal_noNaN _ PassBackExamples.none_noNaN) n _).2
      ⟨rfl, .inr ⟨?_, "NotFound".toList, by decide⟩⟩
    intro h
    cases h with
    | struct hm h =>
      rcases hm with _ | ⟨_, _ | ⟨_, ⟨⟩⟩⟩
      · cases h
      · cases h with
        | struct hm h => rcases hm with _ | ⟨_, ⟨⟩⟩; cases h
  · intro w h
    rw [C119_back _ PassBackExamples.exTy_simple 404 _ (by unfold AsciiNames PassBackExamples.exFlag; decide)
      _ h1 (PassBackExamples.exVal_noNaN _ (PassBackExamples.flag_noNaN _)) (n + 1) w] at h
    rcases h.2 with h | h
    · cases h
    · exact h.1 (.struct (.tail _ (.head _)) (.struct (.head _) (.some .true)))

end ChainExamples

end Htrpc
