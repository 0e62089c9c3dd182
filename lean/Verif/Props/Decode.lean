/-
Properties of decoding (C58-C60, C63, C64).
-/
import Verif.Lemmas.Total
import Verif.Lemmas.PathRead
import Verif.Props.Path
import Verif.Props.Query
import Verif.Props.Header

namespace Htrpc
open Spec

/-! ### C58 -/

section
variable [FloatText]

/-- **C58.** Whatever arrives, decoding a request gives a value or an `Invalid` error. -/
theorem C58_request (e : EntryPoint) (t : Ty) (target : Target) (hs : List Header) :
    (∃ v, deRequest e t target hs = .ok v) ∨ deRequest e t target hs = .err .invalid :=
  (deRequest_sat e t target hs).ok_or_invalid

/-- **C58.** Whatever arrives, decoding a response gives a value or an `Invalid` error. -/
theorem C58_response (t : Ty) (code : Nat) (hs : List Header) :
    (∃ v, deResponse t code hs = .ok v) ∨ deResponse t code hs = .err .invalid :=
  (deResponse_sat t code hs).ok_or_invalid

/-! ### C63 -/

/-- **C63.** From a path that matches the entry point (as routing ensures) the server reads exactly
the values of the segments at the variables; if one of them is no text of its type, the request is
rejected as `Invalid`. -/
theorem C63_path_read_exactly (e : EntryPoint) (segs : List Str) (h : Matches e segs)
    (ts : List Ty) (hc : ts.length = varCount e) :
    dePath e (.tuple ts) (some segs) = match readSegments ts (variables e segs) with
      | some vs => .ok (.tuple vs)
      | none => .err .invalid := by
  rw [dePath_matches h ts hc]
  cases readSegments ts (variables e segs) <;> rfl

/-- **C63**, every type of path: tuples read the first variables and ignore surplus ones, sequences
read all variables, single values read the first; everything else is rejected as `Invalid`. -/
theorem C63_path_read (e : EntryPoint) (segs : List Str) (h : Matches e segs) (t : Ty) :
    dePath e t (some segs) = match readPath t (variables e segs) with
      | some v => .ok v
      | none => .err .invalid := by
  rw [dePath_every h t]
  cases readPath t (variables e segs) <;> rfl

/-- **C63**, surplus variables: a server whose path type is a tuple with fewer elements than the
entry point has variables ignores the others. -/
theorem C63_surplus_ignored (e : EntryPoint) (segs : List Str) (h : Matches e segs) (ts : List Ty)
    (vs : List Val) (hr : readSegments ts ((variables e segs).take ts.length) = some vs) :
    dePath e (.tuple ts) (some segs) = .ok (.tuple vs) := by
  rw [C63_path_read e segs h, readPath, hr]
  rfl

theorem readSegments_length : ∀ (ts : List Ty) (ss : List Str) (vs : List Val),
    readSegments ts ss = some vs → ts.length = ss.length
  | [], [], _, _ => rfl
  | [], _ :: _, _, h => by simp [readSegments] at h
  | _ :: _, [], _, h => by simp [readSegments] at h
  | t :: ts, s :: ss, vs, h => by
    rw [readSegments] at h
    cases h1 : readSegment t s with
    | none => simp [h1] at h
    | some v =>
      cases h2 : readSegments ts ss with
      | none => simp [h1, h2] at h
      | some vs' => simp [readSegments_length ts ss vs' h2]

/-- **C63**, missing variables: a server whose path type is a tuple with more elements than the
entry point has variables rejects every request. -/
theorem C63_missing_rejected (e : EntryPoint) (segs : List Str) (h : Matches e segs) (ts : List Ty)
    (hc : varCount e < ts.length) : dePath e (.tuple ts) (some segs) = .err .invalid := by
  rw [C63_path_read e segs h, readPath]
  cases hr : readSegments ts ((variables e segs).take ts.length) with
  | none => rfl
  | some vs =>
    have := readSegments_length _ _ _ hr
    rw [List.length_take, variables_length h] at this
    omega

private def exMixed : EntryPoint := [.val "a".toList, .var, .val "b".toList, .var]
private def exSegs : List Str := ["a".toList, "1".toList, "b".toList, "2".toList]
omit [FloatText] in
private theorem exMatch : Matches exMixed exSegs :=
  .cons rfl (.cons trivial (.cons rfl (.cons trivial .nil)))

-- a vector reads both variables, a shorter tuple and a single value only the first
example : dePath exMixed (.seq .str) (some exSegs) =
    .ok (.seq [.str "1".toList, .str "2".toList]) := by
  rw [C63_path_read _ _ exMatch]; rfl
example : dePath exMixed (.tuple [.str]) (some exSegs) = .ok (.tuple [.str "1".toList]) := by
  rw [C63_path_read _ _ exMatch]; rfl
example : dePath exMixed .str (some exSegs) = .ok (.str "1".toList) := by
  rw [C63_path_read _ _ exMatch]; rfl
example : dePath exMixed (.tuple [.str, .str, .str]) (some exSegs) = .err .invalid :=
  C63_missing_rejected _ _ exMatch _ (by decide)

/-! ### C59, C64: values that do not arrive -/

theorem readArg_lost {v : Val} (hv : Lost v) {s : Str} (h : SentAs v s) {t : Ty} (ht : HasTy v t) :
    readArg t s = none := by
  induction hv generalizing t s with
  | true =>
    cases ht
    generalize hw : Val.bool true = w at h
    cases h with
    | bool b => cases hw; rfl
    | _ => cases hw
  | char => cases ht; rfl
  | unitVariant => cases ht; rfl
  | newtypeVariant => cases ht; rfl
  | some => cases h
  | newtype _ ih =>
    cases ht with
    | newtypeStruct ht =>
      cases h with
      | newtypeStruct h => rw [readArg, ih h ht]; rfl

theorem readText_lost {v : Val} (hv : Lost v) {s : Str} (h : SentOpt v s) {t : Ty}
    (ht : HasTy v t) : readText t s = none := by
  induction hv generalizing t s with
  | true => exact readText_true h .true ht
  | char => cases ht; rfl
  | unitVariant => cases ht; rfl
  | newtypeVariant => cases ht; rfl
  | some _ ih =>
    cases ht with
    | some ht =>
      cases h with
      | sent h => cases h
      | some h => rw [readText, ih h ht]; rfl
  | newtype _ ih =>
    cases ht with
    | newtypeStruct ht =>
      cases h with
      | sent h =>
        cases h with
        | newtypeStruct h => rw [readText, ih (.sent h) ht]; rfl
      | newtypeStruct h => rw [readText, ih h ht]; rfl

theorem readBytes_lost {v : Val} (hv : Lost v) {b : Bytes} (h : SentHeader v b) {t : Ty}
    (ht : HasTy v t) : readBytes t b = none := by
  induction hv generalizing t b with
  | true =>
    cases ht
    generalize hw : Val.bool true = w at h
    cases h with
    | sent h =>
      cases h with
      | bool b => cases hw; rw [readBytes, fromUtf8_utf8]; rfl
      | _ => cases hw
    | _ => cases hw
  | char => cases ht; rfl
  | unitVariant => cases ht; rfl
  | newtypeVariant => cases ht; rfl
  | some _ ih =>
    cases ht with
    | some ht =>
      cases h with
      | sent h => cases h
      | some h => rw [readBytes, ih h ht]; rfl
  | newtype _ ih =>
    cases ht with
    | newtypeStruct ht =>
      cases h with
      | sent h =>
        cases h with
        | newtypeStruct h => rw [readBytes, ih (.sent h) ht]; rfl
      | newtypeStruct h => rw [readBytes, ih h ht]; rfl

omit [FloatText] in
theorem Spec.Lost.not_omitted {v : Val} (h : Lost v) : ¬ Omitted v := by
  induction h with
  | some _ ih => intro h; cases h with | some h => exact ih h
  | newtype _ ih => intro h; cases h with | newtypeStruct h => exact ih h
  | newtypeVariant hv => intro h; cases h with | newtypeVariant h => exact hv h
  | _ => intro h; cases h

omit [FloatText] in
theorem HasTys_length {vs : List Val} {ts : List Ty} (h : HasTys vs ts) :
    vs.length = ts.length := by
  match h with
  | .nil => rfl
  | .cons _ h => rw [List.length_cons, List.length_cons, HasTys_length h]

theorem readSegments_lost {vs : List Val} {ss : List Str} (hs : SentAll vs ss) {ts : List Ty}
    (ht : HasTys vs ts) (hascii : ∀ s ∈ ss, Ascii s) (hnl : ∀ s ∈ ss, NoTabNl s)
    (hl : ∃ v ∈ vs, Lost v) : readSegments ts (ss.map encodeSegment) = none := by
  induction hs generalizing ts with
  | nil => obtain ⟨v, hv, _⟩ := hl; cases hv
  | @cons v s vs ss hv _ ih =>
    cases ht with
    | cons ht hts =>
      rw [List.map_cons, readSegments, readSegment_eq,
        percentDecode_ascii (hascii _ List.mem_cons_self) (hnl _ List.mem_cons_self),
        Option.bind_some]
      obtain ⟨w, hw, hl⟩ := hl
      rcases List.mem_cons.1 hw with rfl | hw
      · rw [readArg_lost hl hv ht]
      · rw [ih hts (fun s h => hascii s (List.mem_cons_of_mem _ h))
          (fun s h => hnl s (List.mem_cons_of_mem _ h)) ⟨w, hw, hl⟩]
        split
        · rename_i h; cases h
        · rfl

/-- Newtypes around a tuple do not change whether it is read. -/
theorem dePath_argTuple {v : Val} {vs : List Val} (hv : ArgTuple v vs) {t : Ty} (ht : HasTy v t) :
    ∃ ts, HasTys vs ts ∧ ∀ e segs, dePath e (.tuple ts) segs = .err .invalid →
      dePath e t segs = .err .invalid := by
  have key : ∃ ts, HasTys vs ts ∧ ∀ st, PathDe.de (.tuple ts) st = .err .invalid →
      PathDe.de t st = .err .invalid := by
    induction hv generalizing t with
    | tuple vs =>
      cases ht with
      | tuple ht => exact ⟨_, ht, fun _ h => h⟩
    | tupleStruct vs =>
      cases ht with
      | tupleStruct ht =>
        refine ⟨_, ht, fun st h => ?_⟩
        simp only [PathDe.de] at h ⊢
        cases he : st.enterSeq with
        | err k => rw [he] at h; cases h; rfl
        | panic => rw [he] at h; cases h
        | ok st' =>
          rw [he, Res.bind_ok] at h
          rw [Res.bind_ok]
          cases hd : PathDe.deAll _ st' with
          | err k => rw [hd] at h; cases h; rfl
          | panic => rw [hd] at h; cases h
          | ok r => rw [hd] at h; cases h
    | newtype _ ih =>
      cases ht with
      | newtypeStruct ht =>
        obtain ⟨ts, h1, h2⟩ := ih ht
        exact ⟨ts, h1, fun st h => by simp only [PathDe.de]; rw [h2 st h]; rfl⟩
  obtain ⟨ts, h1, h2⟩ := key
  refine ⟨ts, h1, fun e segs h => ?_⟩
  cases segs with
  | none => rfl
  | some segs =>
    simp only [dePath, PathDe.new, Res.ofOption_some, Res.bind_ok] at h ⊢
    rw [h2]
    · rfl
    · cases hd : PathDe.de (.tuple ts) ⟨false, segs, e, varCount e⟩ with
      | err k => rw [hd] at h; cases h; rfl
      | panic => rw [hd] at h; cases h
      | ok r => rw [hd] at h; cases h

/-- **C64**, paths, the ordinary case: the constants need no escaping and the arguments keep the shape
of the path. Then the request reaches the procedure, which rejects it. -/
theorem C64_path_rejected (o : UrlOracle) (e : EntryPoint) (hp : PlainConsts e) (v : Val)
    (vs : List Val) (hv : ArgTuple v vs) (t : Ty) (ht : HasTy v t) (ss : List Str)
    (hs : SentAll vs ss) (harity : vs.length = varCount e) (hascii : ∀ s ∈ ss, Ascii s)
    (hnl : ∀ s ∈ ss, NoTabNl s) (hc : Carried (instantiate e ss)) (hl : ∃ w ∈ vs, Lost w) :
    ∃ path target, serPath e ['/'] v = .ok path ∧ parseTarget o path = some target ∧
      dePath e t target.segs = .err .invalid := by
  have hw := PathSer.writes_of_sent hs
  have hlen : ss.length = varCount e := by rw [← harity, hw.length]
  refine ⟨_, _, by rw [serPath_tuple hv hw, if_pos hlen.symm], parseTarget_push_none o hc, ?_⟩
  obtain ⟨ts, hts, hinv⟩ := dePath_argTuple hv ht
  obtain ⟨h1, h2⟩ := matches_sent hp ss hlen
  refine hinv e _ ?_
  have hl2 : ts.length = varCount e := by
    rw [← harity]
    exact (HasTys_length hts).symm
  rw [C63_path_read_exactly e _ h1 ts hl2, h2, readSegments_lost hs hts hascii hnl hl]

omit [FloatText] in
/-- What holds of the segments of a path holds of those at the variables. -/
theorem variables_pairs {R : Str → Str → Prop} {e : EntryPoint} {segs : List Str}
    (h : Matches e segs) {ss : List Str} (hc : ss.length = varCount e)
    (hp : Pairs R segs (instantiate e ss)) : Pairs R (variables e segs) ss := by
  induction h generalizing ss with
  | nil =>
    have : ss = [] := List.length_eq_zero_iff.1 hc
    subst this
    exact .nil
  | @cons s e p ps hs _ ih =>
    cases s with
    | val c =>
      rw [instantiate] at hp
      cases hp with
      | cons _ hp => exact ih (by simpa using hc) hp
    | var =>
      cases ss with
      | nil => simp at hc
      | cons a ss =>
        rw [instantiate] at hp
        cases hp with
        | cons h hp => exact .cons h (ih (by simpa using hc) hp)

omit [FloatText] in
theorem matches_length {e : EntryPoint} {segs : List Str} (h : Matches e segs) :
    segs.length = e.length := by
  induction h with
  | nil => rfl
  | cons _ _ ih => simp [ih]

omit [FloatText] in
/-- Whatever the arguments are, the server finds a path; if it matches the entry point, then every
argument is at its place, except for dot segments, which are empty. -/
theorem variables_sent (o : UrlOracle) (e : EntryPoint) (ss : List Str)
    (hc : ss.length = varCount e) :
    ∃ segs, parseTarget o ((instantiate e ss).foldl pushSegment ['/']) = some ⟨some segs, none⟩ ∧
      (Matches e segs →
        Pairs (fun g s => g = if Dots s then [] else encodeSegment s) (variables e segs) ss) := by
  obtain ⟨segs, -, h2, h3⟩ := parseTarget_pushed o (instantiate e ss) none (by simp)
  exact ⟨segs, h2, fun h => variables_pairs h hc (h3 (by rw [instantiate_length, matches_length h]))⟩

/-- A lost argument is not read, even if a dot segment changed it. -/
theorem readSegment_lost {v : Val} (hv : Lost v) {s g : Str} (h : SentAs v s) {t : Ty}
    (ht : HasTy v t) (hg : g = if Dots s then [] else encodeSegment s) : readSegment t g = none := by
  have key : (s = "ture".toList ∧ readArg t s = none) ∨ ∀ x, readArg t x = none := by
    clear hg
    induction hv generalizing t s with
    | true =>
      refine .inl ⟨?_, readArg_lost .true h ht⟩
      generalize hw : Val.bool true = w at h
      cases h with
      | bool b => cases hw; rfl
      | _ => cases hw
    | char => cases ht; exact .inr fun _ => rfl
    | unitVariant => cases ht; exact .inr fun _ => rfl
    | newtypeVariant => cases ht; exact .inr fun _ => rfl
    | some => cases h
    | newtype _ ih =>
      cases ht with
      | newtypeStruct ht =>
        cases h with
        | newtypeStruct h =>
          rcases ih h ht with ⟨h1, h2⟩ | h1
          · exact .inl ⟨h1, by rw [readArg, h2]; rfl⟩
          · exact .inr fun x => by rw [readArg, h1]; rfl
  rw [readSegment_eq]
  rcases key with ⟨h1, h2⟩ | h1
  · subst h1
    rw [hg, if_neg (by decide), percentDecode_ascii (by unfold Ascii; decide) (by unfold NoTabNl; decide),
      Option.bind_some, h2]
  · cases percentDecode g with
    | none => rfl
    | some x => exact h1 x

theorem readSegments_pairs_lost {vs : List Val} {ss : List Str} (hs : SentAll vs ss) {ts : List Ty}
    (ht : HasTys vs ts) {segs : List Str}
    (hg : Pairs (fun g s => g = if Dots s then [] else encodeSegment s) segs ss) (hl : ∃ v ∈ vs, Lost v) :
    readSegments ts segs = none := by
  induction hs generalizing ts segs with
  | nil => obtain ⟨v, hv, _⟩ := hl; cases hv
  | @cons v s vs ss hv _ ih =>
    cases ht with
    | cons ht hts =>
      cases hg with
      | cons hg hgs =>
        rw [readSegments]
        obtain ⟨w, hw, hl⟩ := hl
        rcases List.mem_cons.1 hw with rfl | hw
        · rw [readSegment_lost hl hv ht hg]
        · rw [ih hts hgs ⟨w, hw, hl⟩]
          split
          · rename_i h; cases h
          · rfl

/-- **C64**, paths: arguments with a `true`, a character or an enum among them are sent, whatever the
entry point and the other arguments are, but a server does not accept them: if the path still matches
the entry point, so that the request reaches the procedure, decoding fails with `Invalid`. -/
theorem C64_path_lost (o : UrlOracle) (e : EntryPoint) (v : Val)
    (vs : List Val) (hv : ArgTuple v vs) (t : Ty) (ht : HasTy v t) (ss : List Str)
    (hs : SentAll vs ss) (harity : vs.length = varCount e) (hl : ∃ w ∈ vs, Lost w) :
    ∃ path segs, serPath e ['/'] v = .ok path ∧ parseTarget o path = some ⟨some segs, none⟩ ∧
      (Matches e segs → dePath e t (some segs) = .err .invalid) := by
  have hw := PathSer.writes_of_sent hs
  have hlen : ss.length = varCount e := by rw [← harity, hw.length]
  obtain ⟨segs, h1, h2⟩ := variables_sent o e ss hlen
  refine ⟨_, segs, by rw [serPath_tuple hv hw, if_pos hlen.symm], h1, fun hm => ?_⟩
  obtain ⟨ts, hts, hinv⟩ := dePath_argTuple hv ht
  refine hinv e _ ?_
  have hl2 : ts.length = varCount e := by
    rw [← harity]
    exact (HasTys_length hts).symm
  rw [C63_path_read_exactly e _ hm ts hl2, readSegments_pairs_lost hs hts (h2 hm) hl]

/-- **C64**, queries: a struct with a field that is `true`, a character or an enum is sent, but
every server rejects it. -/
theorem C64_query_lost (fs : List (Str × Val)) (ts : List (Str × Ty)) (ps : List (Str × Str))
    (hp : SentFields fs ps) (ht : HasTyFields fs ts) (hd : DistinctNames ts)
    (hb : ∃ n v, (n, v) ∈ fs ∧ Lost v) :
    ∃ q, serQuery (.struct fs) = .ok q ∧ deQuery (.struct ts) (some q) = .err .invalid := by
  refine ⟨_, serQuery_struct hp, ?_⟩
  obtain ⟨n, v, hm, hv⟩ := hb
  have hdecl : ∀ p ∈ ps, Declared ts p.1 := by
    intro p h
    unfold Declared
    rw [← HasTyFields_names ht]
    exact FieldEntries_name hp (List.mem_map.2 ⟨p, h, rfl⟩)
  have hdf : DistinctNames fs := by unfold DistinctNames; rw [HasTyFields_names ht]; exact hd
  obtain ⟨t, htm, htv⟩ := HasTyFields_type ht hm
  have hpf : formParse ((some (formText ps)).getD []) = ps := formParse_formText ps
  rw [deQuery_tame hd (by rw [hpf]; exact .of_declared hdecl), hpf,
    readStruct, collect_none htm]
  · rfl
  · rcases FieldEntries_filter hp hdf hm with ⟨h, -⟩ | ⟨x, hx, hf⟩
    · exact absurd h hv.not_omitted
    · simp only [fieldValue, hf]
      exact readText_lost hv hx htv

/-- **C64**, headers: a struct with a field that is `true`, a character or an enum is sent, but it
is never read back, whatever headers are around. -/
theorem C64_header_lost (fs : List (Str × Val)) (ts : List (Str × Ty)) (es : List (Str × Bytes))
    (hp : SentHeaders fs es) (ht : HasTyFields fs ts) (hd : DistinctNames ts)
    (hl : ∀ f ∈ ts, LowerName f.1) (hb : ∃ n v, (n, v) ∈ fs ∧ Lost v) :
    ∃ own, (∀ before, serHeaders before (.struct fs) = .ok (before ++ own)) ∧
      ∀ hs, AsciiNames hs → (hs.filter fun h => decide (Declared ts (nameText h.1))) = own →
        deHeaders (.struct ts) hs = .err .invalid := by
  have hle : ∀ e ∈ es, LowerName e.1 := by
    intro e he
    have := FieldEntries_name hp (List.mem_map.2 ⟨e, he, rfl⟩)
    unfold Declared at this
    rw [HasTyFields_names ht] at this
    obtain ⟨f, hf, hf'⟩ := List.mem_map.1 this
    exact hf' ▸ hl f hf
  refine ⟨headersOf es, fun before => serHeaders_struct hp before, ?_⟩
  intro hs hn ho
  obtain ⟨n, v, hm, hv⟩ := hb
  have hdf : DistinctNames fs := by unfold DistinctNames; rw [HasTyFields_names ht]; exact hd
  obtain ⟨t, htm, htv⟩ := HasTyFields_type ht hm
  rw [deHeaders_struct hd hn, ← readStruct_filter, ← entries_filter, ho, entries_headersOf hle,
    readStruct, collect_none htm]
  · rfl
  · rcases FieldEntries_filter hp hdf hm with ⟨h, -⟩ | ⟨x, hx, hf⟩
    · exact absurd h hv.not_omitted
    · simp only [fieldValue, hf]
      exact readBytes_lost hv hx htv

/-! ### C59 -/

theorem readSegments_get {ts : List Ty} {segs : List Str} {ws : List Val}
    (h : readSegments ts segs = some ws) {k : Nat} {t : Ty} {g : Str} (ht : ts[k]? = some t)
    (hg : segs[k]? = some g) : ∃ w, readSegment t g = some w ∧ ws[k]? = some w := by
  induction ts generalizing segs ws k with
  | nil => simp at ht
  | cons u ts ih =>
    cases segs with
    | nil => simp at hg
    | cons x segs =>
      rw [readSegments] at h
      split at h
      · rename_i v vs h1 h2
        cases h
        cases k with
        | zero =>
          simp at ht hg
          subst ht hg
          exact ⟨v, h1, rfl⟩
        | succ k => simpa using ih h2 (by simpa using ht) (by simpa using hg)
      · cases h

omit [FloatText] in
theorem Pairs.get {α β : Type} {R : α → β → Prop} {as : List α} {bs : List β} (h : Pairs R as bs)
    {k : Nat} {b : β} (hb : bs[k]? = some b) : ∃ a, as[k]? = some a ∧ R a b := by
  induction h generalizing k with
  | nil => simp at hb
  | cons h _ ih =>
    cases k with
    | zero => simp at hb; subst hb; exact ⟨_, rfl, h⟩
    | succ k => simpa using ih (by simpa using hb)

theorem Spec.SentAll.get {vs : List Val} {ss : List Str} (h : SentAll vs ss) {k : Nat} {v : Val}
    (hv : vs[k]? = some v) : ∃ s, ss[k]? = some s ∧ SentAs v s := by
  induction h generalizing k with
  | nil => simp at hv
  | cons h _ ih =>
    cases k with
    | zero => simp at hv; subst hv; exact ⟨_, rfl, h⟩
    | succ k => simpa using ih (by simpa using hv)

omit [FloatText] in
theorem HasTys_get {vs : List Val} {ts : List Ty} (h : HasTys vs ts) {k : Nat} {v : Val}
    (hv : vs[k]? = some v) : ∃ t, ts[k]? = some t ∧ HasTy v t := by
  match h with
  | .nil => simp at hv
  | .cons h1 h2 =>
    cases k with
    | zero => simp at hv; subst hv; exact ⟨_, rfl, h1⟩
    | succ k => simpa using HasTys_get h2 (by simpa using hv)

/-- **C59.** `false` in a path among any other arguments: whatever the entry point and the other
arguments are, a server that accepts the path has `false` at its place. -/
theorem C59_false_in_path (o : UrlOracle) (e : EntryPoint) (vs : List Val) (ts : List Ty)
    (ht : HasTys vs ts) (ss : List Str) (hs : SentAll vs ss) (harity : vs.length = varCount e)
    (k : Nat) (hk : vs[k]? = some (.bool false)) :
    ∃ path segs, serPath e ['/'] (.tuple vs) = .ok path ∧
      parseTarget o path = some ⟨some segs, none⟩ ∧
      (Matches e segs → ∀ w, dePath e (.tuple ts) (some segs) = .ok w →
        ∃ ws, w = .tuple ws ∧ ws[k]? = some (.bool false)) := by
  have hw := PathSer.writes_of_sent hs
  have hlen : ss.length = varCount e := by rw [← harity, hw.length]
  obtain ⟨segs, h1, h2⟩ := variables_sent o e ss hlen
  refine ⟨_, segs, by rw [serPath_tuple (.tuple _) hw, if_pos hlen.symm], h1, fun hm w hok => ?_⟩
  have hl2 : ts.length = varCount e := by
    rw [← harity]
    exact (HasTys_length ht).symm
  rw [C63_path_read_exactly e _ hm ts hl2] at hok
  cases hr : readSegments ts (variables e segs) with
  | none => rw [hr] at hok; cases hok
  | some ws =>
    rw [hr] at hok
    cases hok
    refine ⟨ws, rfl, ?_⟩
    obtain ⟨s, hsk, hsent⟩ := hs.get hk
    obtain ⟨g, hgk, hg⟩ := (h2 hm).get hsk
    obtain ⟨t, htk, hty⟩ := HasTys_get ht hk
    obtain ⟨w, h3, h4⟩ := readSegments_get hr htk hgk
    rw [h4]
    cases hty
    have hsf : s = "false".toList := by
      generalize hx : Val.bool false = x at hsent
      cases hsent with
      | bool b => cases hx; rfl
      | _ => cases hx
    subst hsf
    rw [hg, if_neg (by decide), readSegment_eq,
      percentDecode_ascii (by unfold Ascii; decide) (by unfold NoTabNl; decide)] at h3
    exact h3.symm

omit [FloatText] in
theorem collect_get {value : Str → Ty → Option Val} {fs : List (Str × Ty)} {gs : List (Str × Val)}
    (h : collectFields value fs = some gs) {n : Str} {t : Ty} (hm : (n, t) ∈ fs) :
    ∃ w, value n t = some w ∧ (n, w) ∈ gs := by
  induction fs generalizing gs with
  | nil => cases hm
  | cons f fs ih =>
    obtain ⟨m, u⟩ := f
    rw [collectFields] at h
    split at h
    · rename_i v vs h1 h2
      cases h
      rcases List.mem_cons.1 hm with hm | hm
      · cases hm; exact ⟨v, h1, List.mem_cons_self⟩
      · obtain ⟨w, h3, h4⟩ := ih h2 hm
        exact ⟨w, h3, List.mem_cons_of_mem _ h4⟩
    · cases h

/-- **C59.** `false` in a query among any other fields: a server that accepts the query has `false`
in this field. -/
theorem C59_false_in_query (fs : List (Str × Val)) (ts : List (Str × Ty)) (ps : List (Str × Str))
    (hp : SentFields fs ps) (ht : HasTyFields fs ts) (hd : DistinctNames ts) (n : Str)
    (hm : (n, .bool false) ∈ fs) :
    ∃ q, serQuery (.struct fs) = .ok q ∧ ∀ w, deQuery (.struct ts) (some q) = .ok w →
      ∃ gs, w = .struct gs ∧ (n, .bool false) ∈ gs := by
  refine ⟨_, serQuery_struct hp, fun w hok => ?_⟩
  have hdecl : ∀ p ∈ ps, Declared ts p.1 := by
    intro p h
    unfold Declared
    rw [← HasTyFields_names ht]
    exact FieldEntries_name hp (List.mem_map.2 ⟨p, h, rfl⟩)
  have hdf : DistinctNames fs := by unfold DistinctNames; rw [HasTyFields_names ht]; exact hd
  obtain ⟨t, htm, htv⟩ := HasTyFields_type ht hm
  have hpf : formParse ((some (formText ps)).getD []) = ps := formParse_formText ps
  rw [deQuery_tame hd (by rw [hpf]; exact .of_declared hdecl), hpf, readStruct] at hok
  cases hc : collectFields (fieldValue readText ps) ts with
  | none => rw [hc] at hok; cases hok
  | some gs =>
    rw [hc] at hok
    cases hok
    refine ⟨gs, rfl, ?_⟩
    obtain ⟨w, h1, h2⟩ := collect_get hc htm
    rcases FieldEntries_filter hp hdf hm with ⟨h, -⟩ | ⟨x, hx, hf⟩
    · cases h
    · simp only [fieldValue, hf] at h1
      cases htv
      have hxf : x = "false".toList := by
        generalize hy : Val.bool false = y at hx
        cases hx with
        | sent hx =>
          cases hx with
          | bool b => cases hy; rfl
          | _ => cases hy
        | _ => cases hy
      subst hxf
      have : some (Val.bool false) = some w := h1
      cases this
      exact h2

/-- **C59.** `false` in headers among any other fields and any other headers: a receiver that accepts
the headers has `false` in this field. -/
theorem C59_false_in_header (fs : List (Str × Val)) (ts : List (Str × Ty)) (es : List (Str × Bytes))
    (hp : SentHeaders fs es) (ht : HasTyFields fs ts) (hd : DistinctNames ts)
    (hl : ∀ f ∈ ts, LowerName f.1) (n : Str) (hm : (n, .bool false) ∈ fs) :
    ∃ own, (∀ before, serHeaders before (.struct fs) = .ok (before ++ own)) ∧
      ∀ hs, AsciiNames hs → (hs.filter fun h => decide (Declared ts (nameText h.1))) = own →
        ∀ w, deHeaders (.struct ts) hs = .ok w → ∃ gs, w = .struct gs ∧ (n, .bool false) ∈ gs := by
  have hle : ∀ e ∈ es, LowerName e.1 := by
    intro e he
    have := FieldEntries_name hp (List.mem_map.2 ⟨e, he, rfl⟩)
    unfold Declared at this
    rw [HasTyFields_names ht] at this
    obtain ⟨f, hf, hf'⟩ := List.mem_map.1 this
    exact hf' ▸ hl f hf
  refine ⟨headersOf es, fun before => serHeaders_struct hp before, ?_⟩
  intro hs hn ho w hok
  have hdf : DistinctNames fs := by unfold DistinctNames; rw [HasTyFields_names ht]; exact hd
  obtain ⟨t, htm, htv⟩ := HasTyFields_type ht hm
  rw [deHeaders_struct hd hn, ← readStruct_filter, ← entries_filter, ho, entries_headersOf hle,
    readStruct] at hok
  cases hc : collectFields (fieldValue readBytes es) ts with
  | none => rw [hc] at hok; cases hok
  | some gs =>
    rw [hc] at hok
    cases hok
    refine ⟨gs, rfl, ?_⟩
    obtain ⟨w, h1, h2⟩ := collect_get hc htm
    rcases FieldEntries_filter hp hdf hm with ⟨h, -⟩ | ⟨x, hx, hf⟩
    · cases h
    · simp only [fieldValue, hf] at h1
      cases htv
      have hxf : x = utf8 "false".toList := by
        generalize hy : Val.bool false = y at hx
        cases hx with
        | sent hx =>
          cases hx with
          | bool b => cases hy; rfl
          | _ => cases hy
        | _ => cases hy
      subst hxf
      rw [readBytes, fromUtf8_utf8] at h1
      have : some (Val.bool false) = some w := h1
      cases this
      exact h2

/-- **C59.** `true` is sent, but never arrives: in a path, in a query or in headers. -/
theorem C59_true_lost (n : Str) :
    (∀ o, ∃ path target, serPath [.var] ['/'] (.tuple [.bool true]) = .ok path ∧
      parseTarget o path = some target ∧
      dePath [.var] (.tuple [.bool]) target.segs = .err .invalid) ∧
    (∃ q, serQuery (.struct [(n, .bool true)]) = .ok q ∧
      deQuery (.struct [(n, .bool)]) (some q) = .err .invalid) ∧
    (LowerName n → ∃ own, serHeaders [] (.struct [(n, .bool true)]) = .ok own ∧
      deHeaders (.struct [(n, .bool)]) own = .err .invalid) := by
  refine ⟨fun o => ?_, ?_, fun hn => ?_⟩
  · refine C64_path_rejected o [.var] ?_ _ _ (.tuple _) _ (.tuple (.cons (.bool _) .nil))
      ["ture".toList] (.cons (.bool true) .nil) rfl ?_ ?_ ?_ ⟨_, List.mem_cons_self, .true⟩
    · intro c hc; simp at hc
    · intro s hs c hc; simp at hs; subst hs; revert c; decide
    · intro s hs; simp at hs; subst hs; unfold NoTabNl; decide
    · refine ⟨by simp [instantiate], ?_, .inl rfl⟩
      intro s hs; simp [instantiate] at hs; subst hs; decide
  · exact C64_query_lost _ _ [(n, "ture".toList)] (.present (.sent (.bool true)) .nil)
      (.cons (.bool _) .nil) (by simp [DistinctNames]) ⟨n, _, List.mem_cons_self, .true⟩
  · obtain ⟨own, h1, h2⟩ := C64_header_lost [(n, .bool true)] [(n, .bool)]
      [(n, utf8 "ture".toList)] (.present (.sent (.bool true)) .nil) (.cons (.bool _) .nil)
      (by simp [DistinctNames]) (by simpa using hn) ⟨n, _, List.mem_cons_self, .true⟩
    have h3 := serHeaders_struct (fs := [(n, Val.bool true)])
      (.present (.sent (.bool true)) .nil) []
    have h4 := h1 []
    rw [h3] at h4
    simp only [List.nil_append, Res.ok.injEq] at h4
    rw [← h4] at h2
    refine ⟨_, h3, h2 _ ?_ ?_⟩
    · intro h hh b hb
      simp [headersOf] at hh
      subst hh
      exact utf8_lowerName_ascii hn b hb
    · simp [headersOf, Declared, nameText_utf8 hn]

/-! ### C60 -/

omit [FloatText] in
theorem isDigit_iff (c : Char) :
    c.isDigit = true ↔ '0'.toNat ≤ c.toNat ∧ c.toNat ≤ '9'.toNat := by
  simp only [Char.isDigit, Bool.and_eq_true, decide_eq_true_eq]
  exact Iff.rfl

omit [FloatText] in
theorem parseDigits_iff (s : Str) (n : Nat) :
    parseDigits s = some n ↔ Digits s ∧ n = digitsValue s := by
  have hd : (s ≠ [] ∧ s.all Char.isDigit = true) ↔ Digits s := by
    unfold Digits
    rw [List.all_eq_true]
    simp only [isDigit_iff]
  unfold parseDigits
  by_cases h : Digits s
  · rw [if_pos (hd.2 h)]
    constructor
    · intro e; cases e; exact ⟨h, rfl⟩
    · rintro ⟨_, rfl⟩; rfl
  · rw [if_neg (fun x => h (hd.1 x))]
    constructor
    · intro e; cases e
    · intro e; exact absurd e.1 h

omit [FloatText] in
theorem range_iff (t : IntTy) (i : Int) : InRange t i ↔ t.min ≤ i ∧ i ≤ t.max := by
  cases t <;> simp [InRange, isSigned, bits, IntTy.min, IntTy.max] <;> intros <;> omega

omit [FloatText] in
theorem isSigned_iff (t : IntTy) : isSigned t ↔ t.signed = true := by
  cases t <;> simp [isSigned, IntTy.signed]

omit [FloatText] in
/-- **C60.** The values of an integer type are those of its width: of the two's complement numbers
with that many bits for signed types, of the binary numbers for the others. -/
theorem C60_integer_range (t : IntTy) (i : Int) : HasTy (.int t i) (.int t) ↔ InRange t i := by
  rw [range_iff]
  constructor
  · intro h
    cases h with
    | int _ _ h => simpa [IntTy.fits] using h
  · intro h
    exact .int _ _ (by simpa [IntTy.fits] using h)

omit [FloatText] in
theorem parseInt_iff (t : IntTy) (s : Str) (i : Int) :
    parseInt t s = some i ↔
      Denotes s i ∧ t.min ≤ i ∧ i ≤ t.max ∧ (s.head? = some '-' → t.signed = true) := by
  have hfit : ∀ j : Int, t.fits j = true ↔ t.min ≤ j ∧ j ≤ t.max := by
    intro j; simp [IntTy.fits]
  have key : ∀ v : Option Int, (match v with
      | some i => if t.fits i then some i else none
      | none => none) = some i ↔ v = some i ∧ t.min ≤ i ∧ i ≤ t.max := by
    intro v
    cases v with
    | none => simp
    | some j =>
      simp only
      split
      · rename_i hj
        constructor
        · intro e; cases e; exact ⟨rfl, (hfit _).1 hj⟩
        · intro e; exact e.1
      · rename_i hj
        constructor
        · intro e; cases e
        · rintro ⟨e, h⟩; cases e; exact absurd ((hfit _).2 h) hj
  unfold parseInt
  refine (key _).trans ?_
  have hsign : ∀ c ds, Digits (c :: ds) → c ≠ '+' ∧ c ≠ '-' := by
    intro c ds h
    have := h.2 c List.mem_cons_self
    constructor <;> rintro rfl <;> exact absurd this (by decide)
  have hmap : ∀ (f : Nat → Int) ds, (parseDigits ds).map f = some i ↔
      Digits ds ∧ i = f (digitsValue ds) := by
    intro f ds
    rw [Option.map_eq_some_iff]
    constructor
    · rintro ⟨n, h1, rfl⟩
      obtain ⟨h2, rfl⟩ := (parseDigits_iff ds n).1 h1
      exact ⟨h2, rfl⟩
    · rintro ⟨h1, rfl⟩
      exact ⟨_, (parseDigits_iff ds _).2 ⟨h1, rfl⟩, rfl⟩
  split
  · rename_i ds
    rw [hmap]
    constructor
    · rintro ⟨⟨h1, rfl⟩, h2⟩
      exact ⟨.plus h1, h2.1, h2.2, fun h => by cases h⟩
    · rintro ⟨h1, h2, h3, -⟩
      cases h1 with
      | plain h => exact absurd rfl (hsign _ _ h).1
      | plus h => exact ⟨⟨h, rfl⟩, h2, h3⟩
  · rename_i ds
    by_cases hs : t.signed = true
    · rw [if_pos hs, hmap]
      constructor
      · rintro ⟨⟨h1, rfl⟩, h2⟩
        exact ⟨.minus h1, h2.1, h2.2, fun _ => hs⟩
      · rintro ⟨h1, h2, h3, -⟩
        cases h1 with
        | plain h => exact absurd rfl (hsign _ _ h).2
        | minus h => exact ⟨⟨h, rfl⟩, h2, h3⟩
    · rw [if_neg hs]
      constructor
      · rintro ⟨h, -⟩; cases h
      · rintro ⟨-, -, -, h⟩; exact absurd (h rfl) hs
  · rename_i h1 h2
    rw [hmap]
    constructor
    · rintro ⟨⟨h, rfl⟩, h'⟩
      refine ⟨.plain h, h'.1, h'.2, fun hh => ?_⟩
      cases s with
      | nil => cases hh
      | cons c ds => simp at hh; subst hh; exact absurd rfl (h2 ds)
    · rintro ⟨h, h3, h4, -⟩
      cases h with
      | plain h => exact ⟨⟨h, rfl⟩, h3, h4⟩
      | plus h => exact absurd rfl (h1 _)
      | minus h => exact absurd rfl (h2 _)

omit [FloatText] in
/-- **C60.** The texts read as an integer of a type are the decimal numbers, with an optional sign,
in the range of the type; `-` is accepted only by signed types. -/
theorem C60_integer_texts (t : IntTy) (s : Str) (i : Int) :
    parseInt t s = some i ↔
      Denotes s i ∧ InRange t i ∧ (s.head? = some '-' → isSigned t) := by
  rw [parseInt_iff, range_iff, isSigned_iff, and_assoc]

/-- What is rejected: a text that denotes no number in the range of the type. -/
def Spec.NoInt (t : IntTy) (s : Str) : Prop := ∀ i, Denotes s i → ¬ InRange t i

omit [FloatText] in
theorem parseInt_noInt {t : IntTy} {s : Str} (h : NoInt t s) : parseInt t s = none := by
  cases hp : parseInt t s with
  | none => rfl
  | some i =>
    have := (C60_integer_texts t s i).1 hp
    exact absurd this.2.1 (h i this.1)

theorem readSegments_none {ts : List Ty} {segs : List Str} {k : Nat} {t : Ty} {s : Str}
    (ht : ts[k]? = some t) (hs : segs[k]? = some s) (h : readSegment t s = none) :
    readSegments ts segs = none := by
  induction ts generalizing segs k with
  | nil => cases ht
  | cons u ts ih =>
    cases segs with
    | nil => cases hs
    | cons x segs =>
      rw [readSegments]
      cases k with
      | zero => cases ht; cases hs; rw [h]
      | succ k =>
        rw [ih (by simpa using ht) (by simpa using hs)]
        split
        · rename_i h; cases h
        · rfl

/-- **C60**, paths: a request whose segment for an integer argument denotes no number in the range
of its type is rejected. -/
theorem C60_path_rejects (e : EntryPoint) (segs : List Str) (h : Matches e segs) (ts : List Ty)
    (hc : ts.length = varCount e) (k : Nat) (t : IntTy) (seg s : Str) (ht : ts[k]? = some (.int t))
    (hseg : (variables e segs)[k]? = some seg) (hs : unescape seg = some s)
    (hno : NoInt t s) : dePath e (.tuple ts) (some segs) = .err .invalid := by
  rw [C63_path_read_exactly e segs h ts hc, readSegments_none ht hseg]
  rw [readSegment, hs, Option.bind_some, readArg, parseInt_noInt hno]
  rfl

/-- **C60**, queries (the part that holds): a request whose parameter for an integer field denotes no
number in the range of its type is rejected, provided that no unknown parameter has a declared name
as value (`Tame`). Missing: all other queries, for which it is false (`C60_full_fails`). -/
theorem C60_query_rejects_partial (ts : List (Str × Ty)) (hd : DistinctNames ts) (q : Option Str)
    (hq : Tame ts (formParse (q.getD []))) (n : Str) (t : IntTy) (hn : (n, .int t) ∈ ts) (s : Str)
    (hs : (n, s) ∈ formParse (q.getD [])) (hno : NoInt t s) :
    deQuery (.struct ts) q = .err .invalid := by
  rw [deQuery_tame hd hq, readStruct, collect_none hn]
  · rfl
  · have hm : (n, s) ∈ (formParse (q.getD [])).filter fun e => decide (e.1 = n) :=
      List.mem_filter.2 ⟨hs, by simp⟩
    rw [fieldValue]
    split
    · rename_i he; rw [he] at hm; cases hm
    · rename_i x he
      rw [he, List.mem_singleton] at hm
      subst hm
      rw [readText, parseInt_noInt hno]
      rfl
    · rfl

/-- **C60**, all queries: if the parameter for an integer field, as it is really read, denotes no
number in the range of its type, the request is rejected. -/
theorem C60_query_effective (ts : List (Str × Ty)) (hd : DistinctNames ts) (q : Option Str)
    (n : Str) (t : IntTy) (hn : (n, .int t) ∈ ts) (s : Str)
    (hs : (n, s) ∈ effective ts (row (formParse (q.getD [])))) (hno : NoInt t s) :
    deQuery (.struct ts) q = .err .invalid := by
  rw [deQuery_effective hd, readStruct, collect_none hn]
  · rfl
  · generalize effective ts (row (formParse (q.getD []))) = ps at hs
    have hm : (n, s) ∈ ps.filter fun e => decide (e.1 = n) := List.mem_filter.2 ⟨hs, by simp⟩
    rw [fieldValue]
    split
    · rename_i he; rw [he] at hm; cases hm
    · rename_i x he
      rw [he, List.mem_singleton] at hm
      subst hm
      rw [readText, parseInt_noInt hno]
      rfl
    · rfl

/-- **C60**: the part about queries is false in full. The query `x=b&a=999&a=1` is accepted although
999 does not fit into the `u8` field `a`. -/
theorem C60_full_fails :
    ∃ (ts : List (Str × Ty)) (n s : Str) (q : Str) (v : Val), DistinctNames ts ∧
      (n, .int .u8) ∈ ts ∧ (n, s) ∈ formParse q ∧ parseInt .u8 s = none ∧
      deQuery (.struct ts) (some q) = .ok v := by
  have hp : formParse ((some "x=b&a=999&a=1".toList).getD []) =
    [("x".toList, "b".toList), ("a".toList, "999".toList), ("a".toList, "1".toList)] := by decide
  have h3 : parseInt .u8 ['1'] = some 1 := by decide
  refine ⟨[("a".toList, .int .u8), ("b".toList, .option .str)], "a".toList, "999".toList,
    "x=b&a=999&a=1".toList, .struct [("a".toList, .int .u8 1), ("b".toList, .some (.str "a".toList))],
    by unfold DistinctNames; decide, List.mem_cons_self .., by decide, by decide, ?_⟩
  rw [deQuery_texts, hp]
  simp [h3, gatherTexts, readText, assemble, List.lookup]

/-- **C60**, headers: a message whose header for an integer field denotes no number in the range of
its type is rejected. -/
theorem C60_header_rejects (ts : List (Str × Ty)) (hd : DistinctNames ts) (hs : List Header)
    (hn : AsciiNames hs) (n : Str) (t : IntTy) (hnt : (n, .int t) ∈ ts) (name : Bytes) (s : Str)
    (hh : (name, utf8 s) ∈ hs) (hname : nameText name = n) (hno : NoInt t s) :
    deHeaders (.struct ts) hs = .err .invalid := by
  rw [deHeaders_struct hd hn, readStruct, collect_none hnt]
  · rfl
  · have hm : (n, utf8 s) ∈ (entries hs).filter fun e => decide (e.1 = n) :=
      List.mem_filter.2 ⟨List.mem_map.2 ⟨_, hh, by rw [hname]⟩, by simp⟩
    rw [fieldValue]
    split
    · rename_i he; rw [he] at hm; cases hm
    · rename_i x he
      rw [he, List.mem_singleton] at hm
      subst hm
      rw [readBytes, fromUtf8_utf8, Option.bind_some, parseInt_noInt hno]
      rfl
    · rfl

end

section
variable [LawfulFloatText]

/-- Booleans and numbers arrive from every position. -/
theorem plain_arrives {v : Val} {s : Str} (h : PlainArg v s) (hstr : ∀ s, v ≠ .str s)
    (hnew : ∀ w, v ≠ .newtypeStruct w) {t : Ty} (ht : HasTy v t) (n : Str) :
    (∀ o, ∃ path target, serPath [.var] ['/'] (.tuple [v]) = .ok path ∧
      parseTarget o path = some target ∧
      dePath [.var] (.tuple [t]) target.segs = .ok (.tuple [v])) ∧
    (∃ q, serQuery (.struct [(n, v)]) = .ok q ∧
      deQuery (.struct [(n, t)]) (some q) = .ok (.struct [(n, v)])) ∧
    (LowerName n → ∃ own, serHeaders [] (.struct [(n, v)]) = .ok own ∧
      deHeaders (.struct [(n, t)]) own = .ok (.struct [(n, v)])) := by
  obtain ⟨h1, h2, h3, h4⟩ := plain_text_harmless h hstr hnew
  refine ⟨fun o => ?_, ?_, fun hn => ?_⟩
  · obtain ⟨path, target, a, b, -, c⟩ := C07_path_round_trip o [.var] (fun c hc => by simp at hc)
      (.tuple [v]) [v] (.tuple _) (.tuple [t]) (.tuple (.cons ht .nil)) [s] (.cons h .nil) rfl
      (by simpa using h1) (by simpa using h2)
      ⟨by simp [instantiate], by simpa [instantiate] using h4, .inl rfl⟩
    exact ⟨path, target, a, b, c⟩
  · exact C12_query_round_trip_partial _ _ [(n, s)] (.present (.plain h) .nil) (.cons ht .nil)
      (by simp [DistinctNames])
  · obtain ⟨own, h5, h6⟩ := C19_header_round_trip [(n, v)] [(n, t)] [(n, utf8 s)]
      (.present (.plain h) .nil) (.cons ht .nil) (by simp [DistinctNames]) (by simpa using hn)
    have h7 := serHeaders_struct (fs := [(n, v)]) (.present (.sent h.sentAs) .nil) []
    have h8 := h5 []
    rw [h7] at h8
    simp only [List.nil_append, Res.ok.injEq] at h8
    rw [← h8] at h6
    refine ⟨_, h7, h6 _ ?_ ?_⟩
    · intro h hh b hb
      simp [headersOf] at hh
      subst hh
      exact utf8_lowerName_ascii hn b hb
    · simp [headersOf, Declared, nameText_utf8 hn]

/-- **C59.** `false` arrives: in a path, in a query or in headers. -/
theorem C59_false_arrives (n : Str) :
    (∀ o, ∃ path target, serPath [.var] ['/'] (.tuple [.bool false]) = .ok path ∧
      parseTarget o path = some target ∧
      dePath [.var] (.tuple [.bool]) target.segs = .ok (.tuple [.bool false])) ∧
    (∃ q, serQuery (.struct [(n, .bool false)]) = .ok q ∧
      deQuery (.struct [(n, .bool)]) (some q) = .ok (.struct [(n, .bool false)])) ∧
    (LowerName n → ∃ own, serHeaders [] (.struct [(n, .bool false)]) = .ok own ∧
      deHeaders (.struct [(n, .bool)]) own = .ok (.struct [(n, .bool false)])) :=
  plain_arrives .false (by simp) (by simp) (.bool _) n

/-- **C60.** Every integer of every type arrives: in a path, in a query or in headers. -/
theorem C60_integers_arrive (t : IntTy) (i : Int) (hmin : t.min ≤ i) (hmax : i ≤ t.max) (n : Str) :
    (∀ o, ∃ path target, serPath [.var] ['/'] (.tuple [.int t i]) = .ok path ∧
      parseTarget o path = some target ∧
      dePath [.var] (.tuple [.int t]) target.segs = .ok (.tuple [.int t i])) ∧
    (∃ q, serQuery (.struct [(n, .int t i)]) = .ok q ∧
      deQuery (.struct [(n, .int t)]) (some q) = .ok (.struct [(n, .int t i)])) ∧
    (LowerName n → ∃ own, serHeaders [] (.struct [(n, .int t i)]) = .ok own ∧
      deHeaders (.struct [(n, .int t)]) own = .ok (.struct [(n, .int t i)])) :=
  plain_arrives (.int t i) (by simp) (by simp) (.int t i (by simp [IntTy.fits, hmin, hmax])) n

end

/-! ### Examples -/

section Examples

/-- `C58`: a request without the declared header. -/
example : letI := toyFloat
    deRequest [.var] (.struct [("header".toList, .struct [("a".toList, .int .u8)])])
      ⟨some [['x']], none⟩ [([97], [51, 48, 48])] = .err .invalid := by
  let := toyFloat
  rcases C58_request [.var] (.struct [("header".toList, .struct [("a".toList, .int .u8)])])
    ⟨some [['x']], none⟩ [([97], [51, 48, 48])] with ⟨v, hv⟩ | h
  · exfalso
    revert hv
    rw [show deRequest [.var] (.struct [("header".toList, .struct [("a".toList, .int .u8)])])
      ⟨some [['x']], none⟩ [([97], [51, 48, 48])] = .err .invalid by rfl]
    intro h; cases h
  · exact h

/-- `C63`: `/users/12/%41b` for the entry point `/users/{}/{}`. -/
example : letI := toyFloat
    dePath [.val "users".toList, .var, .var] (.tuple [.int .u16, .str])
      (some ["users".toList, "12".toList, "%41b".toList]) =
      .ok (.tuple [.int .u16 12, .str "Ab".toList]) := by
  let := toyFloat
  have h : Matches [.val "users".toList, .var, .var] ["users".toList, "12".toList, "%41b".toList] :=
    .cons (s := .val _) rfl (.cons (s := .var) trivial (.cons (s := .var) trivial .nil))
  rw [C63_path_read_exactly _ _ h [.int .u16, .str] rfl]
  rfl

/-- `C64`: a character between two numbers. -/
example (o : UrlOracle) : letI := toyFloat
    ∃ path target, serPath [.var, .var, .var] ['/'] (.tuple [.int .u8 1, .char 'x', .int .u8 2]) =
        .ok path ∧ parseTarget o path = some target ∧
      dePath [.var, .var, .var] (.tuple [.int .u8, .char, .int .u8]) target.segs =
        .err .invalid := by
  let := toyFloat
  refine C64_path_rejected o [.var, .var, .var] (fun c hc => by simp at hc) _ _ (.tuple _) _
    (.tuple (.cons (.int _ _ rfl) (.cons (.char _) (.cons (.int _ _ rfl) .nil))))
    ["1".toList, "x".toList, "2".toList]
    (.cons (.int _ _) (.cons (.char _) (.cons (.int _ _) .nil))) rfl ?_ ?_ ?_
    ⟨.char 'x', by simp, .char _⟩
  · unfold Ascii; decide
  · unfold NoTabNl; decide
  · unfold Carried; decide

/-- `C64_path_lost`: next to arguments that are not ASCII or lose a tab, and which the server accepts. -/
example (o : UrlOracle) : letI := toyFloat
    ∃ path segs, serPath [.val "a".toList, .var, .var] ['/']
        (.tuple [.str "\té".toList, .bool true]) = .ok path ∧
      parseTarget o path = some ⟨some segs, none⟩ ∧
      Matches [.val "a".toList, .var, .var] segs ∧
      dePath [.val "a".toList, .var, .var] (.tuple [.str, .bool]) (some segs) = .err .invalid := by
  let := toyFloat
  obtain ⟨path, segs, h1, h2, h3⟩ := C64_path_lost o [.val "a".toList, .var, .var] _ _
    (.tuple [.str "\té".toList, .bool true]) _ (.tuple (.cons (.str _) (.cons (.bool _) .nil)))
    _ (.cons (.str _) (.cons (.bool true) .nil)) rfl ⟨_, by simp, .true⟩
  have h4 := serPath_tuple (.tuple [.str "\té".toList, .bool true])
    (PathSer.writes_of_sent (.cons (.str "\té".toList) (.cons (.bool true) .nil)))
    [.val "a".toList, .var, .var] ['/']
  rw [if_pos (by rfl), h1] at h4
  cases h4
  rw [parseTarget_push_none o (by unfold Carried; decide)] at h2
  have h5 : segs = ["a".toList, "%C3%A9".toList, "ture".toList] := by
    cases h2; decide
  have hm : Matches [.val "a".toList, .var, .var] segs := by
    subst h5; exact .cons rfl (.cons trivial (.cons trivial .nil))
  exact ⟨_, segs, h1, by rw [← h2, parseTarget_push_none o (by unfold Carried; decide)], hm, h3 hm⟩

/-- `C59_false_in_path`: next to an argument that the server accepts but changes. -/
example (o : UrlOracle) : letI := toyFloat
    ∃ path segs, serPath [.var, .var] ['/'] (.tuple [.str "é".toList, .bool false]) = .ok path ∧
      parseTarget o path = some ⟨some segs, none⟩ ∧
      dePath [.var, .var] (.tuple [.str, .bool]) (some segs) =
        .ok (.tuple [.str "Ã©".toList, .bool false]) := by
  let := toyFloat
  have h4 := serPath_tuple (.tuple [.str "é".toList, .bool false])
    (PathSer.writes_of_sent (.cons (.str "é".toList) (.cons (.bool false) .nil)))
    [.var, .var] ['/']
  refine ⟨_, ["%C3%A9".toList, "false".toList], h4, ?_, ?_⟩
  · exact parseTarget_push_none o (L := ["é".toList, "false".toList]) (by unfold Carried; decide)
  · have hm : Matches [.var, .var] ["%C3%A9".toList, "false".toList] :=
      .cons trivial (.cons trivial .nil)
    rw [C63_path_read_exactly _ _ hm _ rfl]
    rfl

/-- `C59_false_in_query` (that such a query is accepted is `C59_false_arrives`). -/
example : letI := toyFloat
    ∃ q, serQuery (.struct [("f".toList, .bool false)]) = .ok q ∧
      ∀ w, deQuery (.struct [("f".toList, .bool)]) (some q) = .ok w →
        ∃ gs, w = .struct gs ∧ ("f".toList, .bool false) ∈ gs :=
  letI := toyFloat
  C59_false_in_query _ _ _ (.present (.sent (.bool false)) .nil) (.cons (.bool _) .nil)
    (by simp [DistinctNames]) _ List.mem_cons_self

/-- `C64_query_lost`, `C64_header_lost`: an enum as optional field. -/
example : letI := toyFloat
    ∃ q, serQuery (.struct [("sort".toList, .some (.unitVariant "Asc".toList))]) = .ok q ∧
      deQuery (.struct [("sort".toList, .option (.enum [("Asc".toList, .unit)]))]) (some q) =
        .err .invalid :=
  letI := toyFloat
  C64_query_lost _ _ _ (.present (.some (.sent (.unitVariant _))) .nil)
    (.cons (.some (.unitVariant List.mem_cons_self)) .nil) (by simp [DistinctNames])
    ⟨_, _, List.mem_cons_self, .some (.unitVariant _)⟩

/-- `C60_query_rejects_partial`: 256 for a `u8`, `-1` for a `u64`. -/
example : NoInt .u8 "256".toList := by
  intro i h
  cases h with
  | plain h => decide
example : NoInt .u64 "-1".toList := by
  intro i h
  cases h with
  | plain h => exact absurd (h.2 '-' (by decide)) (by decide)
  | minus h => decide

example : letI := toyFloat
    deQuery (.struct [("a".toList, .int .u8)]) (some "a=256".toList) = .err .invalid :=
  letI := toyFloat
  C60_query_rejects_partial _ (by simp [DistinctNames]) _ (by decide) "a".toList .u8 List.mem_cons_self
    "256".toList (by decide) (by
      intro i h
      cases h with
      | plain h => decide)

end Examples
end Htrpc
