/-
What any request target means (C85), and that dot segments never reach a handler (C86).
-/
import Verif.Spec.Verdict
import Verif.Lemmas.Origin
import Verif.Lemmas.Dots
import Verif.Props.ReadsServer

namespace Htrpc
open Spec

/-! ### C85 -/

theorem slash_or (c : Char) : (c = '/' ∨ c = '\\') ↔ (c == '/' || c == '\\') = true := by simp

/-- **C85.** The server finds exactly the segments and the parameters of a target in origin form. -/
theorem C85_target (o : UrlOracle) (t : Str) (hv : ∀ c ∈ t, 0x20 < c.toNat) (segs : List Str)
    (ps : List (Str × Str)) (ht : TargetOf t segs ps) :
    ∃ q, parseTarget o t = some ⟨some segs, q⟩ ∧ formParse (q.getD []) = ps := by
  obtain ⟨p, q, L, h1, h2, rfl, h3⟩ := ht
  refine ⟨q.map (writtenOut plainInQuery), ?_, ?_⟩
  · rw [parseTarget_origin o hv h1, (pieces_iff slash_or).1 h2]
  · cases q with
    | none => exact parameters_written h3
    | some q => exact parameters_written h3

/-- **C85.** Every target that begins with exactly one slash has segments and parameters, and no
others. -/
theorem C85_every_target (r : Str) (h : ∀ c s, r = c :: s → c ≠ '/' ∧ c ≠ '\\') :
    ∃ segs ps, TargetOf ('/' :: r) segs ps ∧
      ∀ segs' ps', TargetOf ('/' :: r) segs' ps' → segs' = segs ∧ ps' = ps := by
  obtain ⟨p, q, ho⟩ := origin_exists (r := r) fun c s hc => by
    have := h c s hc
    simp [isSlash, this]
  have hL := pieces_splitBy (p := fun c => c == '/' || c == '\\') slash_or p
  refine ⟨_, _, ⟨p, q, _, ho, hL, rfl, parameters_iff.2 rfl⟩, ?_⟩
  rintro segs' ps' ⟨p', q', L', h1, h2, rfl, h3⟩
  obtain ⟨r1, e1, -, hr1⟩ := pathQuery_origin ho
  obtain ⟨r2, e2, -, hr2⟩ := pathQuery_origin h1
  cases e1
  cases e2
  rw [hr1] at hr2
  simp only [Target.mk.injEq, Option.some.injEq] at hr2
  refine ⟨by rw [hr2.1, (pieces_iff slash_or).1 h2], ?_⟩
  have hq : ∀ {q : Option Str} {ps}, Parameters (q.getD []) ps →
      formParse ((q.map (writtenOut plainInQuery)).getD []) = ps := by
    intro q ps h
    cases q <;> exact parameters_written h
  rw [← hq h3, ← hr2.2, hq (parameters_iff.2 rfl)]

section
variable [LawfulFloatText] [UrlText]

omit [LawfulFloatText] [UrlText] in
theorem dispatched {cfg : ServerCfg} {m : Method} {segs : List Str} {s : Service}
    (hd : dispatch m segs (table cfg) = .ok s) : s ∈ cfg.services ∧ Matches s.entry segs := by
  rw [table, ← C02_exact_dispatch] at hd
  obtain ⟨r, hr, rfl, -, e3⟩ := C01_routing_sound _ _ _ _ hd
  obtain ⟨s, hs, rfl⟩ := List.mem_map.1 hr
  exact ⟨hs, e3⟩

theorem judged_decided (cfg : ServerCfg) (h : ReqHead) (segs : List Str) (ps : List (Str × Str))
    {q : Option Str} (hp : parseTarget cfg.oracle h.target = some ⟨some segs, q⟩)
    (hq : formParse (q.getD []) = ps)
    (hw : ∀ s ∈ cfg.services, WellNamed s.reqTy) (hn : AsciiNames h.headers) (x : Verdict)
    (hj : Judged cfg h x) : Decided cfg h segs ps x := by
  have hread : ∀ {s}, dispatch h.method segs (table cfg) = .ok s →
      Gives (deRequest s.entry s.reqTy ⟨some segs, q⟩ h.headers)
        (ReadsRequest s.entry segs ps h.headers s.reqTy) := by
    intro s hd
    have := C82_request_read s.entry s.reqTy (hw s (dispatched hd).1) ⟨some segs, q⟩ segs rfl
      (dispatched hd).2 h.headers hn
    rwa [hq] at this
  cases hj with
  | noUrl he => rw [hp] at he; cases he
  | noPath he hs hd =>
    rw [hp] at he; cases he; cases hs
    exact .noPath hd
  | noMethod he hs hd =>
    rw [hp] at he; cases he; cases hs
    exact .noMethod hd
  | undecodable he hs hd hno =>
    rw [hp] at he; cases he; cases hs
    rcases hread hd with ⟨v, hv, -⟩ | ⟨-, h⟩
    · exact absurd hv (hno v)
    · exact .unreadable hd h
  | call he hs hd hok =>
    rw [hp] at he; cases he; cases hs
    exact .call hd ((hread hd).ok_iff hok)

theorem judged_iff_decided (cfg : ServerCfg) (h : ReqHead) (segs : List Str) (ps : List (Str × Str))
    {q : Option Str} (hp : parseTarget cfg.oracle h.target = some ⟨some segs, q⟩)
    (hq : formParse (q.getD []) = ps)
    (hw : ∀ s ∈ cfg.services, WellNamed s.reqTy ∧ Mapless s.reqTy) (hn : AsciiNames h.headers)
    (x : Verdict) : Judged cfg h x ↔ Decided cfg h segs ps x := by
  refine ⟨judged_decided cfg h segs ps hp hq (fun s hs => (hw s hs).1) hn x, fun hj => ?_⟩
  have hread : ∀ {s} v, dispatch h.method segs (table cfg) = .ok s →
      (deRequest s.entry s.reqTy ⟨some segs, q⟩ h.headers = .ok v ↔
        ReadsRequest s.entry segs ps h.headers s.reqTy v) := by
    intro s v hd
    have := C82_request_iff s.entry s.reqTy (hw s (dispatched hd).1).1 (hw s (dispatched hd).1).2
      ⟨some segs, q⟩ segs rfl (dispatched hd).2 h.headers hn v
    rwa [hq] at this
  cases hj with
  | noPath hd => exact .noPath hp rfl hd
  | noMethod hd => exact .noMethod hp rfl hd
  | unreadable hd hno => exact .undecodable hp rfl hd fun v hok => hno v ((hread v hd).1 hok)
  | call hd hr => exact .call hp rfl hd ((hread _ hd).2 hr)

/-- **C85.** What is done with a request whose target is in origin form is decided by its segments,
parameters and headers. -/
theorem C85_verdict (cfg : ServerCfg) (h : ReqHead) (hv : ∀ c ∈ h.target, 0x20 < c.toNat)
    (segs : List Str) (ps : List (Str × Str)) (ht : TargetOf h.target segs ps)
    (hw : ∀ s ∈ cfg.services, WellNamed s.reqTy) (hn : AsciiNames h.headers) (x : Verdict)
    (hj : Judged cfg h x) : Decided cfg h segs ps x := by
  obtain ⟨q, hp, hq⟩ := C85_target cfg.oracle h.target hv segs ps ht
  exact judged_decided cfg h segs ps hp hq hw hn x hj

/-- **C85**, both directions, where no maps are declared (whose order of entries is left open). -/
theorem C85_verdict_iff (cfg : ServerCfg) (h : ReqHead) (hv : ∀ c ∈ h.target, 0x20 < c.toNat)
    (segs : List Str) (ps : List (Str × Str)) (ht : TargetOf h.target segs ps)
    (hw : ∀ s ∈ cfg.services, WellNamed s.reqTy ∧ Mapless s.reqTy) (hn : AsciiNames h.headers)
    (x : Verdict) : Judged cfg h x ↔ Decided cfg h segs ps x := by
  obtain ⟨q, hp, hq⟩ := C85_target cfg.oracle h.target hv segs ps ht
  exact judged_iff_decided cfg h segs ps hp hq hw hn x

/-- **C85.** So every value that a handler is called with, on any connection, is read from the segments,
parameters and headers of the request. -/
theorem C85_called [JsonText] [Wire] (cfg : ServerCfg) (es : List ConnEvent) (n : Nat) (h : ReqHead)
    (l : List ConnEffect) (hb : (blocks (connLog cfg es))[n]? = some (h, l)) (s : Service) (v w : Val)
    (hc : (s, v, w) ∈ calls l) (hv : ∀ c ∈ h.target, 0x20 < c.toNat) (segs : List Str)
    (ps : List (Str × Str)) (ht : TargetOf h.target segs ps) (hw : WellNamed s.reqTy)
    (hn : AsciiNames h.headers) :
    s ∈ cfg.services ∧ s.method = h.method ∧ Matches s.entry segs ∧
      ReadsRequest s.entry segs ps h.headers s.reqTy v := by
  obtain ⟨q, hp, hq⟩ := C85_target cfg.oracle h.target hv segs ps ht
  obtain ⟨t, segs', h1, h2, h3, h4, h5, h6⟩ := C82_called cfg es n h l hb s v w hc hw hn
  rw [hp] at h1
  cases h1
  cases h2
  rw [hq] at h6
  exact ⟨h3, h4, h5, h6⟩

end

/-! ### C86 -/

theorem mem_remaining {n : Nat} {L : List Str} {s : Str} (h : s ∈ remaining n L) :
    s ∈ L ∧ ¬ Here s ∧ ¬ Up s := by
  induction L generalizing n with
  | nil => simp [remaining] at h
  | cons x L ih =>
    rw [remaining_cons] at h
    split at h
    · exact ⟨List.mem_cons_of_mem _ (ih h).1, (ih h).2⟩
    · split at h
      · exact ⟨List.mem_cons_of_mem _ (ih h).1, (ih h).2⟩
      · rename_i hu hh
        split at h
        · rcases List.mem_cons.1 h with rfl | h
          · exact ⟨List.mem_cons_self, hh, hu⟩
          · exact ⟨List.mem_cons_of_mem _ (ih h).1, (ih h).2⟩
        · exact ⟨List.mem_cons_of_mem _ (ih h).1, (ih h).2⟩

/-- **C86.** No segment of any target means the current directory or the one above, however its dots
are written. -/
theorem C86_no_dot_segments (t : Str) (segs : List Str) (ps : List (Str × Str))
    (ht : TargetOf t segs ps) : ∀ s ∈ segs, ¬ Here s ∧ ¬ Up s := by
  obtain ⟨p, q, L, -, -, rfl, -⟩ := ht
  intro s hs
  rw [resolve] at hs
  rcases List.mem_append.1 hs with h | h
  · exact (mem_remaining (List.mem_reverse.1 h)).2
  · split at h
    · split at h
      · rw [List.mem_singleton.1 h]
        exact ⟨by decide, by decide⟩
      · cases h
    · cases h

/-- **C86.** No handler is ever called with the text `.` or `..` in what it gets from the path. -/
theorem C86_no_dot_arguments [LawfulFloatText] [UrlText] [JsonText] [Wire] (cfg : ServerCfg)
    (es : List ConnEvent) (n : Nat) (h : ReqHead) (l : List ConnEffect)
    (hb : (blocks (connLog cfg es))[n]? = some (h, l)) (s : Service) (v w : Val)
    (hc : (s, v, w) ∈ calls l) (hv : ∀ c ∈ h.target, 0x20 < c.toNat) (r : Str)
    (hr : h.target = '/' :: r) (hsl : ∀ c t, r = c :: t → c ≠ '/' ∧ c ≠ '\\')
    (hw : WellNamed s.reqTy) (hn : AsciiNames h.headers) (a : Val) (ha : FromPath v a) (x : Str)
    (hx : HasText x a) : x ≠ ".".toList ∧ x ≠ "..".toList := by
  obtain ⟨segs, ps, ht, -⟩ := C85_every_target r hsl
  rw [← hr] at ht
  obtain ⟨-, -, -, hread⟩ := C85_called cfg es n h l hb s v w hc hv segs ps ht hw hn
  obtain ⟨seg, hs, hu⟩ := fromPath_text hread ha hx
  have hno := C86_no_dot_segments _ _ _ ht seg hs
  exact ⟨fun e => hno.1 (by rw [Here, hu, e]), fun e => hno.2 (by rw [Up, hu, e])⟩

/-! ### Examples -/

/-- The bytes `C3 28` are no UTF-8: the first one is replaced; in `E2 82 28` the first two are. -/
example : Lossy [0xC3, 0x28, 0xE2, 0x82, 0x28]
    [Char.ofNat 0xFFFD, '(', Char.ofNat 0xFFFD, '('] := lossy_iff.2 (by decide +kernel)

/-- `C85`: a target with everything in it. -/
example : TargetOf "/a/../users/x%2e/%2E/7 é?x=1+2&&y=%C3%28&%2z==#f".toList
    ["users".toList, "x%2e".toList, "7%20%C3%A9".toList]
    [("x".toList, "1 2".toList), ("y".toList, [Char.ofNat 0xFFFD, '(']),
      ("%2z".toList, "=".toList)] := by
  have he : "/a/../users/x%2e/%2E/7 é?x=1+2&&y=%C3%28&%2z==#f".toList =
      '/' :: ("a/../users/x%2e/%2E/7 é".toList ++ '?' :: ("x=1+2&&y=%C3%28&%2z==".toList ++
        ['#', 'f'])) := by decide +kernel
  rw [he]
  refine ⟨_, _, _, .query ⟨by decide +kernel, by decide +kernel, ?_⟩ (by decide +kernel)
    (.inr ⟨_, rfl⟩), pieces_splitBy slash_or _, by decide +kernel,
    parameters_iff.2 (by decide +kernel)⟩
  have hd : "a/../users/x%2e/%2E/7 é".toList = 'a' :: "/../users/x%2e/%2E/7 é".toList := by
    decide +kernel
  rw [hd]
  rintro c r h
  simp only [List.cons.injEq] at h
  rw [← h.1]
  decide

/-- `C86`: a path that ends with dots, or tries to leave the root. -/
example : resolve ["..".toList, "a".toList, "b".toList, "%2e.".toList, ".%2E".toList] = [[]] ∧
    resolve ["..".toList, "a".toList, ".".toList] = ["a".toList, []] ∧
    resolve ["a".toList, "..".toList, "..".toList, "b".toList] = ["b".toList] := by
  decide +kernel

/-- `C86` is about whole texts: an escaped slash does not separate, so `../x` does reach a handler. -/
example : TargetOf "/..%2Fx".toList ["..%2Fx".toList] [] ∧
    unescape "..%2Fx".toList = some "../x".toList := by
  refine ⟨?_, by decide +kernel⟩
  have he : "/..%2Fx".toList = '/' :: "..%2Fx".toList := by decide +kernel
  rw [he]
  refine ⟨"..%2Fx".toList, none, _, ?_, pieces_splitBy slash_or _, by decide +kernel,
    parameters_iff.2 (by decide +kernel)⟩
  have h := Origin.path (p := "..%2Fx".toList) (f := [])
    ⟨by decide +kernel, by decide +kernel, ?_⟩ (.inl rfl)
  · rwa [List.append_nil] at h
  · have hd : "..%2Fx".toList = '.' :: ".%2Fx".toList := by decide +kernel
    rw [hd]
    rintro c r h
    simp only [List.cons.injEq] at h
    rw [← h.1]
    decide

end Htrpc
