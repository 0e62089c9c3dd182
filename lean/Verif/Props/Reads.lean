/-
What a receiver makes of any message (C82, C83).
-/
import Verif.Lemmas.Reads
import Verif.Lemmas.PathRead
import Verif.Props.Decode

namespace Htrpc
open Spec

section
variable [FloatText]

omit [FloatText] in
theorem wellNamedFields_mem {fs : List (Str × Ty)} (h : WellNamedFields fs) {f : Str × Ty}
    (hf : f ∈ fs) : WellNamed f.2 := by
  induction fs with
  | nil => cases hf
  | cons g fs ih =>
    obtain ⟨n, t⟩ := g
    rw [WellNamedFields] at h
    rcases List.mem_cons.1 hf with h' | h'
    · subst h'; exact h.1
    · exact ih h.2 h'

omit [FloatText] in
theorem wellNamedVariants_mem {vs : List (Str × VTy)} (h : WellNamedVariants vs) {f : Str × VTy}
    (hf : f ∈ vs) : WellNamedVariant f.2 := by
  induction vs with
  | nil => cases hf
  | cons g vs ih =>
    obtain ⟨n, t⟩ := g
    rw [WellNamedVariants] at h
    rcases List.mem_cons.1 hf with h' | h'
    · subst h'; exact h.1
    · exact ih h.2 h'

omit [FloatText] in
theorem ignoreHeaders_gives (hs : List Header) :
    Gives (ignoreHeaders hs) (fun _ => hs ≠ []) := by
  cases hs with
  | nil => exact .err fun _ h => h rfl
  | cons h hs => exact .ok (List.cons_ne_nil _ _)

theorem dePath_gives (e : EntryPoint) (segs : List Str) (h : Matches e segs) (t : Ty) :
    Gives (dePath e t (some segs)) (fun v => readPath t (variables e segs) = some v) := by
  rw [C63_path_read e segs h t]
  cases readPath t (variables e segs) with
  | some v => exact .ok rfl
  | none => exact .err fun v h => by cases h

omit [FloatText] in
theorem strKey_gives (n : Str) (k : Ty) : Gives (strKey n k) (ReadsKey n k) := by
  cases k with
  | str => exact .ok (.str n)
  | bytes => exact .ok (.bytes n)
  | enum vs =>
    rw [strKey]
    split
    · next h => exact .ok (.variant h)
    · next h =>
      refine .err fun v hv => ?_
      cases hv with
      | variant hv => exact h hv
  | _ => exact .err fun v hv => by cases hv

/-- The parts of a request. -/
def requestParts (e : EntryPoint) (segs : List Str) (target : Target) (hs : List Header) :
    List Part :=
  [⟨"path".toList, fun t => dePath e t target.segs,
      (do let _ ← PathDe.new e target.segs; .ok ()),
      fun t v => readPath t (variables e segs) = some v, True⟩,
   ⟨"query".toList, fun t => deQuery t target.query, .ok (),
      fun t v => ReadsQuery (formParse (target.query.getD [])) t v, True⟩,
   ⟨"header".toList, fun t => deHeaders t hs, ignoreHeaders hs,
      fun t v => ReadsHeaders hs t v, hs ≠ []⟩]

theorem requestField_iff (e : EntryPoint) (segs : List Str) (target : Target) (hs : List Header)
    (n : Str) (t : Ty) (v : Val) : PartField (requestParts e segs target hs) n t v ↔
      RequestField e segs (formParse (target.query.getD [])) hs n t v := by
  unfold PartField requestParts
  by_cases h1 : n = "path".toList
  · subst h1
    constructor
    · intro h; exact .path h
    · intro h
      generalize hm : "path".toList = m at h
      cases h with
      | path h => exact h
      | query => cases hm
      | header => cases hm
      | other h => exact absurd hm.symm h
  rw [List.find?_cons_of_neg (by simpa using fun h => h1 h.symm)]
  by_cases h2 : n = "query".toList
  · subst h2
    constructor
    · intro h; exact .query h
    · intro h
      generalize hm : "query".toList = m at h
      cases h with
      | path => cases hm
      | query h => exact h
      | header => cases hm
      | other _ h => exact absurd hm.symm h
  rw [List.find?_cons_of_neg (by simpa using fun h => h2 h.symm)]
  by_cases h3 : n = "header".toList
  · subst h3
    constructor
    · intro h; exact .header h
    · intro h
      generalize hm : "header".toList = m at h
      cases h with
      | path => cases hm
      | query => cases hm
      | header h => exact h
      | other _ _ h => exact absurd hm.symm h
  rw [List.find?_cons_of_neg (by simpa using fun h => h3 h.symm)]
  constructor
  · rintro ⟨ho, rfl⟩
    cases t <;> first | exact .other h1 h2 h3 | cases ho
  · intro h
    cases h with
    | path => exact absurd rfl h1
    | query => exact absurd rfl h2
    | header => exact absurd rfl h3
    | other => exact ⟨rfl, rfl⟩

/-- **C82.** From every request that was routed to an entry point exactly this is read: each declared
part by its own rule, whatever the other parts are; if there is no such value the request is
`Invalid`. -/
theorem C82_request_read (e : EntryPoint) (t : Ty) (ht : WellNamed t) (target : Target)
    (segs : List Str) (hsegs : target.segs = some segs) (hm : Matches e segs)
    (hs : List Header) (hn : AsciiNames hs) :
    Gives (deRequest e t target hs)
      (ReadsRequest e segs (formParse (target.query.getD [])) hs t) := by
  unfold deRequest
  cases t with
  | newtypeStruct t =>
    rw [WellNamed] at ht
    rw [ReqDe.de]
    refine ((C82_request_read e t ht target segs hsegs hm hs hn).map _).congr fun v => ⟨?_, fun h => ?_⟩
    · rintro ⟨v, h, rfl⟩; exact .newtype h
    · cases h with
      | newtype h => exact ⟨_, h, rfl⟩
  | struct fs =>
    rw [WellNamed] at ht
    have key := parts_gives fs ht.1 (requestParts e segs target hs)
      (by change (["path".toList, "query".toList, "header".toList]).Nodup; decide) ?_
    · have : ReqDe.de ⟨e, target, hs⟩ (.struct fs) = (do
          let vs ← (do let a ← readParts fs (requestParts e segs target hs) []; assemble a fs)
          .ok (.struct vs)) := by
        rw [reqDe_struct]
        simp only [readParts, requestParts, Res.bind_assoc, Res.bind_ok]
      rw [this]
      refine (key.map Val.struct).congr fun v => ⟨?_, fun h => ?_⟩
      · rintro ⟨vs, ⟨hS, hf⟩, rfl⟩
        refine .struct ?_ (fields_mono hf fun n t v _ => (requestField_iff e segs target hs n t v).1)
        by_cases hd : Declared fs "header".toList
        · exact .inl hd
        · exact .inr (hS _ (List.mem_cons_of_mem _ (List.mem_cons_of_mem _ (List.mem_singleton.2 rfl)))
            (lookup_none_iff.2 hd))
      · cases h with
        | struct hh hf =>
          refine ⟨_, ⟨?_, fields_mono hf fun n t v _ =>
            (requestField_iff e segs target hs n t v).2⟩, rfl⟩
          intro p hp hl
          rcases List.mem_cons.1 hp with rfl | hp
          · trivial
          rcases List.mem_cons.1 hp with rfl | hp
          · trivial
          rcases List.mem_singleton.1 hp with rfl
          exact hh.resolve_left (lookup_none_iff.1 hl)
    · intro p hp
      rcases List.mem_cons.1 hp with rfl | hp
      · refine ⟨fun t _ => ?_, ?_⟩
        · simp only [hsegs]; exact dePath_gives e segs hm t
        · simp only [hsegs]; exact .ok trivial
      rcases List.mem_cons.1 hp with rfl | hp
      · exact ⟨fun t hl => deQuery_gives t (wellNamedFields_mem ht.2 (mem_of_lookup hl)) _,
          .ok trivial⟩
      rcases List.mem_singleton.1 hp with rfl
      exact ⟨fun t hl => deHeaders_gives t (wellNamedFields_mem ht.2 (mem_of_lookup hl)) hn,
        ignoreHeaders_gives hs⟩
  | map k t =>
    rw [WellNamed] at ht
    rw [ReqDe.de]
    simp only [visitMap, ReqDe.next, ReqDe.value, hsegs, Res.bind_assoc, Res.bind_ok, reduceCtorEq,
      decide_false, decide_true, Bool.false_eq_true, if_false, if_true]
    refine (strKey_gives _ k).bind (fun a ha => ?_) fun v h => ?_
    · refine (dePath_gives e segs hm t).bind (fun x hx => ?_) fun v h => ?_
      · refine (strKey_gives _ k).bind (fun b hb => ?_) fun v h => ?_
        · refine (deQuery_gives t ht.2 _).bind (fun y hy => ?_) fun v h => ?_
          · refine (strKey_gives _ k).bind (fun c hc => ?_) fun v h => ?_
            · refine (deHeaders_gives t ht.2 hn).bind (fun z hz => ?_) fun v h => ?_
              · exact .ok (.map ha hx hb hy hc hz (insertAll_mapOf [(a, x), (b, y), (c, z)]))
              · cases h with | map _ _ _ _ _ h => exact ⟨_, h⟩
            · cases h with | map _ _ _ _ h => exact ⟨_, h⟩
          · cases h with | map _ _ _ h => exact ⟨_, h⟩
        · cases h with | map _ _ h => exact ⟨_, h⟩
      · cases h with | map _ h => exact ⟨_, h⟩
    · cases h with | map h => exact ⟨_, h⟩
  | _ => exact .err fun v h => by cases h

/-! ### Responses -/

theorem deU16_gives (code : Nat) (t : Ty) : Gives (deU16 code t) (ReadsStatus code t) := by
  cases t with
  | int t =>
    rw [deU16]
    by_cases h : t.fits (Int.ofNat code) = true
    · rw [if_pos h]
      simp only [IntTy.fits, Bool.and_eq_true, decide_eq_true_eq] at h
      exact .ok (.int h.1 h.2)
    · rw [if_neg h]
      refine .err fun v hv => h ?_
      cases hv with
      | int h1 h2 =>
        simp only [IntTy.fits, Bool.and_eq_true, decide_eq_true_eq]
        exact ⟨h1, h2⟩
  | f32 => exact .ok .f32
  | f64 => exact .ok .f64
  | _ => exact .err fun v hv => by cases hv

/-- The phase in which the status may still be read, and the other one. -/
def phaseOf (whole : Bool) : RespPhase := if whole then .init else .status

/-- The parts of a response. -/
def responseParts (code : Nat) (hs : List Header) (whole : Bool) : List Part :=
  let header : Part := ⟨"header".toList, fun t => deHeaders t hs, ignoreHeaders hs,
    fun t v => ReadsHeaders hs t v, hs ≠ []⟩
  if whole then
    [⟨"status".toList, fun t => deU16 code t, .ok (), fun t v => ReadsStatus code t v, True⟩, header]
  else [header]

theorem responseField_iff (code : Nat) (hs : List Header) (whole : Bool) (n : Str) (t : Ty)
    (v : Val) : PartField (responseParts code hs whole) n t v ↔
      ResponseField code hs whole n t v := by
  have hhead (rest) (hr : ∀ p ∈ rest, p.key ≠ "header".toList) : PartField (rest ++
      [⟨"header".toList, fun t => deHeaders t hs, ignoreHeaders hs,
        fun t v => ReadsHeaders hs t v, hs ≠ []⟩]) "header".toList t v ↔
      ResponseField code hs whole "header".toList t v := by
    unfold PartField
    rw [List.find?_append, List.find?_eq_none.2 (by simpa using hr)]
    constructor
    · intro h; exact .header h
    · intro h
      generalize hm : "header".toList = m at h
      cases h with
      | status => cases hm
      | header h => exact h
      | other _ h => exact absurd hm.symm h
  by_cases h3 : n = "header".toList
  · subst h3
    cases whole with
    | false => exact hhead [] (by simp)
    | true =>
      refine hhead [_] ?_
      intro p hp
      rw [List.mem_singleton.1 hp]
      exact (by decide : "status".toList ≠ "header".toList)
  have hother (hs' : n = "status".toList → whole = false) :
      (isOption t = true ∧ v = .none) ↔ ResponseField code hs whole n t v := by
    constructor
    · rintro ⟨ho, rfl⟩
      cases t <;> first | exact .other hs' h3 | cases ho
    · intro h
      cases h with
      | status hw => rw [hs' rfl] at hw; cases hw
      | header => exact absurd rfl h3
      | other => exact ⟨rfl, rfl⟩
  unfold PartField responseParts
  cases whole with
  | false =>
    rw [if_neg Bool.false_ne_true, List.find?_cons_of_neg (fun h => h3 (of_decide_eq_true h).symm)]
    exact hother fun _ => rfl
  | true =>
    rw [if_pos rfl]
    by_cases h1 : n = "status".toList
    · subst h1
      constructor
      · intro h; exact .status rfl h
      · intro h
        generalize hm : "status".toList = m at h
        cases h with
        | status _ h => exact h
        | header => cases hm
        | other h => exact nomatch h hm.symm
    · rw [List.find?_cons_of_neg (fun h => h1 (of_decide_eq_true h).symm),
        List.find?_cons_of_neg (fun h => h3 (of_decide_eq_true h).symm)]
      exact hother fun h => absurd h h1

theorem deStruct_gives (code : Nat) (hs : List Header) (hn : AsciiNames hs) (whole : Bool)
    (fs : List (Str × Ty)) (hd : DistinctNames fs) (hw : WellNamedFields fs) :
    Gives (RespDe.deStruct ⟨code, hs⟩ fs (phaseOf whole)) (fun vs =>
      (Declared fs "header".toList ∨ hs ≠ []) ∧ Fields (ResponseField code hs whole) fs vs) := by
  have key := parts_gives fs hd (responseParts code hs whole)
    (by cases whole with
      | false => change (["header".toList]).Nodup; decide
      | true => change (["status".toList, "header".toList]).Nodup; decide) ?_
  · have : RespDe.deStruct ⟨code, hs⟩ fs (phaseOf whole) = (do
        let a ← readParts fs (responseParts code hs whole) []; assemble a fs) := by
      cases whole with
      | false =>
        rw [phaseOf, if_neg (by simp), respDe_variant, responseParts, if_neg (by simp)]
        simp only [readParts, Res.bind_assoc, Res.bind_ok]
      | true =>
        rw [phaseOf, if_pos rfl, respDe_struct, responseParts, if_pos rfl]
        simp only [readParts, Res.bind_assoc, Res.bind_ok]
    rw [this]
    refine key.congr fun vs => ⟨?_, ?_⟩
    · rintro ⟨hS, hf⟩
      refine ⟨?_, fields_mono hf fun n t v _ => (responseField_iff code hs whole n t v).1⟩
      by_cases hd : Declared fs "header".toList
      · exact .inl hd
      · refine .inr (hS ⟨"header".toList, fun t => deHeaders t hs, ignoreHeaders hs,
          fun t v => ReadsHeaders hs t v, hs ≠ []⟩ ?_ (lookup_none_iff.2 hd))
        cases whole <;> simp [responseParts]
    · rintro ⟨hh, hf⟩
      refine ⟨?_, fields_mono hf fun n t v _ => (responseField_iff code hs whole n t v).2⟩
      intro p hp hl
      cases whole with
      | false =>
        rw [responseParts, if_neg (by simp)] at hp
        rcases List.mem_singleton.1 hp with rfl
        exact hh.resolve_left (lookup_none_iff.1 hl)
      | true =>
        rw [responseParts, if_pos rfl] at hp
        rcases List.mem_cons.1 hp with rfl | hp
        · trivial
        rcases List.mem_singleton.1 hp with rfl
        exact hh.resolve_left (lookup_none_iff.1 hl)
  · intro p hp
    have hh : Part.Ok fs ⟨"header".toList, fun t => deHeaders t hs, ignoreHeaders hs,
        fun t v => ReadsHeaders hs t v, hs ≠ []⟩ :=
      ⟨fun t hl => deHeaders_gives t (wellNamedFields_mem hw (mem_of_lookup hl)) hn,
        ignoreHeaders_gives hs⟩
    cases whole with
    | false =>
      rw [responseParts, if_neg (by simp)] at hp
      rcases List.mem_singleton.1 hp with rfl
      exact hh
    | true =>
      rw [responseParts, if_pos rfl] at hp
      rcases List.mem_cons.1 hp with rfl | hp
      · exact ⟨fun t _ => deU16_gives code t, .ok trivial⟩
      rcases List.mem_singleton.1 hp with rfl
      exact hh

/-- The content of the variant `n`. -/
def ReadsContent (code : Nat) (hs : List Header) (n : Str) : VTy → Val → Prop
  | .unit, v => v = .unitVariant n
  | .newtype t, v => ∃ w, ReadsResponse code hs false t w ∧ v = .newtypeVariant n w
  | .tuple _, _ => False
  | .struct fs, v => ∃ ws, ((Declared fs "header".toList ∨ hs ≠ []) ∧
      Fields (ResponseField code hs false) fs ws) ∧ v = .structVariant n ws

mutual
theorem deResp_gives (code : Nat) (hs : List Header) (hn : AsciiNames hs) (t : Ty)
    (hw : WellNamed t) (whole : Bool) :
    Gives (RespDe.de ⟨code, hs⟩ t (phaseOf whole)) (ReadsResponse code hs whole t) := by
  match t with
  | .newtypeStruct t =>
    rw [WellNamed] at hw
    rw [RespDe.de]
    refine ((deResp_gives code hs hn t hw whole).map _).congr fun v => ⟨?_, fun h => ?_⟩
    · rintro ⟨v, h, rfl⟩; exact .newtype h
    · cases h with
      | newtype h => exact ⟨_, h, rfl⟩
  | .struct fs =>
    rw [WellNamed] at hw
    rw [RespDe.de]
    refine ((deStruct_gives code hs hn whole fs hw.1 hw.2).map _).congr fun v => ⟨?_, fun h => ?_⟩
    · rintro ⟨vs, ⟨h1, h2⟩, rfl⟩; exact .struct h1 h2
    · cases h with
      | struct h1 h2 => exact ⟨_, ⟨h1, h2⟩, rfl⟩
  | .map k t =>
    rw [WellNamed] at hw
    rw [RespDe.de]
    cases whole with
    | true =>
      rw [phaseOf, if_pos rfl]
      simp only [visitMap, RespDe.next, RespDe.value, Res.bind_assoc, Res.bind_ok, reduceCtorEq,
        decide_false, decide_true, Bool.false_eq_true, if_false, if_true]
      refine (strKey_gives _ k).bind (fun a ha => ?_) fun v h => ?_
      · refine (deU16_gives code t).bind (fun x hx => ?_) fun v h => ?_
        · refine (strKey_gives _ k).bind (fun b hb => ?_) fun v h => ?_
          · refine (deHeaders_gives t hw.2 hn).bind (fun y hy => ?_) fun v h => ?_
            · exact .ok (.map ha hx hb hy (insertAll_mapOf [(a, x), (b, y)]))
            · cases h with | map _ _ _ h => exact ⟨_, h⟩
          · cases h with | map _ _ h => exact ⟨_, h⟩
        · cases h with | map _ h => exact ⟨_, h⟩
      · cases h with | map h => exact ⟨_, h⟩
    | false =>
      rw [phaseOf, if_neg Bool.false_ne_true]
      simp only [visitMap, RespDe.next, RespDe.value, Res.bind_assoc, Res.bind_ok, reduceCtorEq,
        decide_false, decide_true, Bool.false_eq_true, if_false, if_true]
      refine (strKey_gives _ k).bind (fun b hb => ?_) fun v h => ?_
      · refine (deHeaders_gives t hw.2 hn).bind (fun y hy => ?_) fun v h => ?_
        · exact .ok (.innerMap hb hy)
        · cases h with | innerMap _ h => exact ⟨_, h⟩
      · cases h with | innerMap h => exact ⟨_, h⟩
  | .enum vs =>
    rw [WellNamed] at hw
    rw [RespDe.de]
    cases hc : statusCodeToStr code with
    | none =>
      refine .err fun v h => ?_
      cases h with
      | unit h => rw [(statusCodeToStr_table _ _).2 h] at hc; cases hc
      | newtypeVariant h => rw [(statusCodeToStr_table _ _).2 h] at hc; cases hc
      | structVariant h => rw [(statusCodeToStr_table _ _).2 h] at hc; cases hc
    | some n =>
      have hmem := (statusCodeToStr_table _ _).1 hc
      have huniq {m} (h : (m, code) ∈ statusTable) : m = n := by
        rw [(statusCodeToStr_table _ _).2 h] at hc; cases hc; rfl
      refine (deVariant_gives code hs hn n vs hw).congr fun v => ⟨?_, fun h => ?_⟩
      · rintro ⟨vt, hl, h⟩
        cases vt with
        | unit => cases h; exact .unit hmem hl
        | newtype t => obtain ⟨w, h, rfl⟩ := h; exact .newtypeVariant hmem hl h
        | tuple => cases h
        | struct fs => obtain ⟨ws, ⟨h1, h2⟩, rfl⟩ := h; exact .structVariant hmem hl h1 h2
      · cases h with
        | unit h hl => rcases huniq h with rfl; exact ⟨_, hl, rfl⟩
        | newtypeVariant h hl h1 => rcases huniq h with rfl; exact ⟨_, hl, _, h1, rfl⟩
        | structVariant h hl h1 h2 => rcases huniq h with rfl; exact ⟨_, hl, _, ⟨h1, h2⟩, rfl⟩
  | .bool | .int _ | .f32 | .f64 | .char | .str | .bytes | .option _ | .unit | .unitStruct _
  | .seq _ | .tuple _ | .tupleStruct _ => exact .err fun v h => by cases h
theorem deVariant_gives (code : Nat) (hs : List Header) (hn : AsciiNames hs) (n : Str)
    (vs : List (Str × VTy)) (hw : WellNamedVariants vs) :
    Gives (RespDe.deVariant ⟨code, hs⟩ n vs)
      (fun v => ∃ vt, vs.lookup n = some vt ∧ ReadsContent code hs n vt v) := by
  match vs with
  | [] => exact .err fun v h => by obtain ⟨vt, h, _⟩ := h; cases h
  | (m, vt) :: vs =>
    rw [WellNamedVariants] at hw
    rw [RespDe.deVariant, List.lookup_cons]
    by_cases h : n = m
    · subst h
      rw [if_pos rfl]
      refine (deContent_gives code hs hn n vt hw.1).congr fun v => ?_
      simp
    · rw [if_neg h, beq_false_of_ne h]
      exact deVariant_gives code hs hn n vs hw.2
theorem deContent_gives (code : Nat) (hs : List Header) (hn : AsciiNames hs) (n : Str)
    (vt : VTy) (hw : WellNamedVariant vt) :
    Gives (RespDe.deContent ⟨code, hs⟩ n vt) (ReadsContent code hs n vt) := by
  match vt with
  | .unit => exact .ok rfl
  | .newtype t =>
    rw [WellNamedVariant] at hw
    rw [RespDe.deContent]
    exact (deResp_gives code hs hn t hw false).map _
  | .tuple _ => exact .err fun v h => h
  | .struct fs =>
    rw [WellNamedVariant] at hw
    rw [RespDe.deContent]
    exact (deStruct_gives code hs hn false fs hw.1 hw.2).map _
end

/-- **C83.** From every response exactly this is read: a variant named after the status, or the
status as a number, and the headers, each by its own rule; if there is no such value the response is
`Invalid`. -/
theorem C83_response_read (t : Ty) (ht : WellNamed t) (code : Nat) (hs : List Header)
    (hn : AsciiNames hs) : Gives (deResponse t code hs) (ReadsResponse code hs true t) :=
  deResp_gives code hs hn t ht true

/-! ### Without maps there is at most one value -/

theorem readsQuery_unique {ps : List (Str × Str)} {t : Ty} (ht : Mapless t) {v w : Val}
    (hv : ReadsQuery ps t v) (hw : ReadsQuery ps t w) : v = w := by
  induction hv generalizing w with
  | struct h =>
    cases hw with
    | struct h' => rw [h] at h'; cases h'; rfl
    | single h' => cases h'
  | map => cases ht
  | single hs hp h =>
    cases hw with
    | single _ hp' h' => rw [hp] at hp'; cases hp'; rw [h] at h'; cases h'; rfl
    | _ => cases hs
  | some _ ih =>
    cases hw with
    | some h' => rw [ih ht h']
    | single h' => cases h'
  | newtype _ ih =>
    cases hw with
    | newtype h' => rw [ih ht h']
    | single h' => cases h'

theorem readsHeaders_unique {hs : List Header} {t : Ty} (ht : Mapless t) {v w : Val}
    (hv : ReadsHeaders hs t v) (hw : ReadsHeaders hs t w) : v = w := by
  induction hv generalizing w with
  | struct h =>
    cases hw with
    | struct h' => rw [h] at h'; cases h'; rfl
    | single h' => cases h'
  | map => cases ht
  | single hs hp h =>
    cases hw with
    | single _ hp' h' => rw [hp] at hp'; cases hp'; rw [h] at h'; cases h'; rfl
    | _ => cases hs
  | some _ ih =>
    cases hw with
    | some h' => rw [ih ht h']
    | single h' => cases h'
  | newtype _ ih =>
    cases hw with
    | newtype h' => rw [ih ht h']
    | single h' => cases h'

omit [FloatText] in
theorem fields_unique {P : Str → Ty → Val → Prop} {fs : List (Str × Ty)} (hm : MaplessFields fs)
    {vs ws : List (Str × Val)} (hv : Fields P fs vs) (hw : Fields P fs ws)
    (hP : ∀ n t v w, Mapless t → P n t v → P n t w → v = w) : vs = ws := by
  induction hv generalizing ws with
  | nil => cases hw; rfl
  | cons h _ ih =>
    cases hw with
    | cons h' hw =>
      rw [MaplessFields] at hm
      rw [hP _ _ _ _ hm.1 h h', ih hm.2 hw]

theorem requestField_unique {e : EntryPoint} {segs : List Str} {ps : List (Str × Str)}
    {hs : List Header} {n : Str} {t : Ty} {v w : Val} (ht : Mapless t)
    (hv : RequestField e segs ps hs n t v) (hw : RequestField e segs ps hs n t w) : v = w := by
  generalize hm : n = m at hw
  cases hv with
  | path h =>
    cases hw with
    | path h' => rw [h] at h'; cases h'; rfl
    | query => cases hm
    | header => cases hm
    | other hx => exact absurd hm.symm hx
  | query h =>
    cases hw with
    | path => cases hm
    | query h' => exact readsQuery_unique ht h h'
    | header => cases hm
    | other _ hx => exact absurd hm.symm hx
  | header h =>
    cases hw with
    | path => cases hm
    | query => cases hm
    | header h' => exact readsHeaders_unique ht h h'
    | other _ _ hx => exact absurd hm.symm hx
  | other h1 h2 h3 =>
    cases hw with
    | path => exact absurd hm h1
    | query => exact absurd hm h2
    | header => exact absurd hm h3
    | other => rfl

theorem responseField_unique {code : Nat} {hs : List Header} {whole : Bool} {n : Str} {t : Ty}
    {v w : Val} (ht : Mapless t) (hv : ResponseField code hs whole n t v)
    (hw : ResponseField code hs whole n t w) : v = w := by
  generalize hm : n = m at hw
  cases hv with
  | status hwh h =>
    cases hw with
    | status _ h' => cases h <;> cases h' <;> rfl
    | header => cases hm
    | other hx => rw [hwh] at hx; exact nomatch hx hm.symm
  | header h =>
    cases hw with
    | status => cases hm
    | header h' => exact readsHeaders_unique ht h h'
    | other _ hx => exact absurd hm.symm hx
  | other h1 h2 =>
    cases hw with
    | status h => rw [h1 hm] at h; cases h
    | header => exact absurd hm h2
    | other => rfl

omit [FloatText] in
theorem gives_iff {α : Type} {r : Res α} {P : α → Prop} (h : Gives r P)
    (hu : ∀ v w, P v → P w → v = w) (v : α) : r = .ok v ↔ P v := by
  refine ⟨h.ok_iff, fun hv => ?_⟩
  rcases h with ⟨w, hw, hp⟩ | ⟨-, hno⟩
  · rw [hw, hu v w hv hp]
  · exact absurd hv (hno v)

/-- **C82**, types without maps: the value read is the only one that the rules allow. -/
theorem C82_request_iff (e : EntryPoint) (t : Ty) (ht : WellNamed t) (hmap : Mapless t)
    (target : Target) (segs : List Str) (hsegs : target.segs = some segs) (hm : Matches e segs)
    (hs : List Header) (hn : AsciiNames hs) (v : Val) :
    deRequest e t target hs = .ok v ↔
      ReadsRequest e segs (formParse (target.query.getD [])) hs t v := by
  refine gives_iff (C82_request_read e t ht target segs hsegs hm hs hn) (fun v w hv hw => ?_) v
  induction hv generalizing w with
  | struct _ hf =>
    cases hw with
    | struct _ hf' => rw [fields_unique hmap hf hf' fun _ _ _ _ => requestField_unique]
  | map => cases hmap
  | newtype _ ih =>
    cases hw with
    | newtype h => rw [ih ht hmap _ h]

omit [FloatText] in
theorem maplessVariants_lookup {vs : List (Str × VTy)} (h : MaplessVariants vs) {n : Str} {vt : VTy}
    (hl : vs.lookup n = some vt) : MaplessVariant vt := by
  induction vs with
  | nil => cases hl
  | cons g vs ih =>
    obtain ⟨m, t⟩ := g
    rw [MaplessVariants] at h
    rw [List.lookup_cons] at hl
    split at hl
    · cases hl; exact h.1
    · exact ih h.2 hl

omit [FloatText] in
theorem status_unique {n m : Str} {c : Nat} (h : (n, c) ∈ statusTable) (h' : (m, c) ∈ statusTable) :
    n = m := by
  rw [← statusCodeToStr_table] at h h'
  rw [h] at h'
  cases h'; rfl

/-- **C83**, types without maps: the value read is the only one that the rules allow. -/
theorem C83_response_iff (t : Ty) (ht : WellNamed t) (hmap : Mapless t) (code : Nat)
    (hs : List Header) (hn : AsciiNames hs) (v : Val) :
    deResponse t code hs = .ok v ↔ ReadsResponse code hs true t v := by
  refine gives_iff (C83_response_read t ht code hs hn) (fun v w hv hw => ?_) v
  generalize true = whole at hv hw
  clear ht
  induction hv generalizing w with
  | struct _ hf =>
    cases hw with
    | struct _ hf' => rw [fields_unique hmap hf hf' fun _ _ _ _ => responseField_unique]
  | map => cases hmap
  | innerMap => cases hmap
  | newtype _ ih =>
    cases hw with
    | newtype h => rw [ih hmap _ h]
  | unit h hl =>
    cases hw with
    | unit h' => rw [status_unique h h']
    | newtypeVariant h' hl' => cases status_unique h h'; rw [hl] at hl'; cases hl'
    | structVariant h' hl' => cases status_unique h h'; rw [hl] at hl'; cases hl'
  | newtypeVariant h hl _ ih =>
    cases hw with
    | unit h' hl' => cases status_unique h h'; rw [hl] at hl'; cases hl'
    | newtypeVariant h' hl' hx =>
      cases status_unique h h'; rw [hl] at hl'; cases hl'
      rw [ih (maplessVariants_lookup hmap hl) _ hx]
    | structVariant h' hl' => cases status_unique h h'; rw [hl] at hl'; cases hl'
  | structVariant h hl _ hf =>
    cases hw with
    | unit h' hl' => cases status_unique h h'; rw [hl] at hl'; cases hl'
    | newtypeVariant h' hl' => cases status_unique h h'; rw [hl] at hl'; cases hl'
    | structVariant h' hl' _ hf' =>
      cases status_unique h h'; rw [hl] at hl'; cases hl'
      rw [fields_unique (maplessVariants_lookup hmap hl) hf hf' fun _ _ _ _ => responseField_unique]

end

/-! ### Examples -/

/-- A newtype of a struct with a path, a query, and an optional field that is no part of a request. -/
private def exTy : Ty :=
  .newtypeStruct (.struct [("query".toList, .struct [("a".toList, .option (.int .u8))]),
    ("note".toList, .option .str), ("path".toList, .tuple [.int .u16])])

private theorem exWell : WellNamed exTy := by
  simp [exTy, WellNamed, WellNamedFields, WellNamedAll, DistinctNames]

private theorem exHost : AsciiNames [(utf8 "Host".toList, [])] := by
  intro h hh; rw [List.mem_singleton.1 hh]; decide

/-- `C82`: from `/users/12?b=1&a=7`, with a header which is not asked for. -/
example : letI := toyFloat
    deRequest [.val "users".toList, .var] exTy
        ⟨some ["users".toList, "12".toList], some "b=1&a=7".toList⟩ [(utf8 "Host".toList, [])] =
      .ok (.newtypeStruct (.struct [("query".toList, .struct [("a".toList, .some (.int .u8 7))]),
        ("note".toList, .none), ("path".toList, .tuple [.int .u16 12])])) := by
  let := toyFloat
  refine (C82_request_iff [.val "users".toList, .var] _ exWell
    (by simp [exTy, Mapless, MaplessFields, MaplessAll])
    ⟨some ["users".toList, "12".toList], some "b=1&a=7".toList⟩ _ rfl
    (.cons rfl (.cons trivial .nil)) _ exHost _).2 ?_
  have hp : formParse ((some "b=1&a=7".toList).getD []) =
    [("b".toList, "1".toList), ("a".toList, "7".toList)] := by decide
  refine .newtype (.struct (.inr (List.cons_ne_nil _ _)) (.cons (.query (.struct ?_))
    (.cons (.other (by decide) (by decide) (by decide)) (.cons (.path ?_) .nil))))
  · rw [hp]
    simp [row, effective, Declared, readStruct, collectFields, fieldValue, readText]
    rfl
  · rfl

/-- `C82`: nothing is read from the same request without any header, which is a bad request. -/
example : letI := toyFloat
    deRequest [.val "users".toList, .var] exTy
      ⟨some ["users".toList, "12".toList], some "b=1&a=7".toList⟩ [] = .err .invalid := by
  let := toyFloat
  rcases C82_request_read [.val "users".toList, .var] _ exWell
    ⟨some ["users".toList, "12".toList], some "b=1&a=7".toList⟩ _ rfl
    (.cons rfl (.cons trivial .nil)) [] (fun _ h => by cases h) with ⟨v, -, hv⟩ | ⟨h, -⟩
  · cases hv with
    | newtype hv =>
      cases hv with
      | struct hh =>
        rcases hh with hh | hh
        · exact absurd hh (by decide)
        · exact absurd rfl hh
  · exact h

/-- `C83`: the status 404 selects the variant `NotFound`, inside of which the optional status is no
longer there. -/
example : letI := toyFloat
    deResponse (.enum [("Ok".toList, .unit), ("NotFound".toList, .newtype (.struct
        [("status".toList, .option (.int .u16)), ("header".toList, .struct [("x".toList, .int .u8)])]))])
      404 [(utf8 "X".toList, utf8 "5".toList)] =
    .ok (.newtypeVariant "NotFound".toList (.struct
        [("status".toList, .none), ("header".toList, .struct [("x".toList, .int .u8 5)])])) := by
  let := toyFloat
  refine (C83_response_iff _ ?_ ?_ 404 _ ?_ _).2 ?_
  · simp [WellNamed, WellNamedVariants, WellNamedVariant, WellNamedFields, DistinctNames]
  · simp [Mapless, MaplessVariants, MaplessVariant, MaplessFields]
  · intro h hh; rw [List.mem_singleton.1 hh]; decide
  refine .newtypeVariant (by decide) rfl (.struct (.inl (by decide)) (.cons (.other (fun _ => rfl)
    (by decide)) (.cons (.header (.struct ?_)) .nil)))
  decide

end Htrpc
