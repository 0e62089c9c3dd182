/-
What anyone reads in the target that a client sends (C94).
-/
import Verif.Props.Target
import Verif.Props.IntegrityRequest
import Verif.Props.Http
import Verif.Spec.SentTarget
import Verif.Lemmas.Segment

namespace Htrpc
open Spec

/-- A target that every host reading leaves alone has the segments and parameters that the URL parser
finds. -/
theorem targetOf_parsed {t : Str} (hs : ∃ r, t = '/' :: r) (hv : ∀ c ∈ t, 0x20 < c.toNat)
    {segs : List Str} {q : Option Str}
    (h : ∀ o : UrlOracle, parseTarget o t = some ⟨some segs, q⟩) :
    TargetOf t segs (formParse (q.getD [])) := by
  obtain ⟨r, rfl⟩ := hs
  have hr : ∀ c s, r = c :: s → c ≠ '/' ∧ c ≠ '\\' := by
    rintro c s rfl
    have := h ⟨fun _ => none⟩
    rw [parseTarget] at this
    simp only [strip_visible hv, parseScheme_slash, parseAgainstBase] at this
    rw [if_pos (by decide)] at this
    by_cases hc : isSlash c = true
    · rw [if_pos hc] at this; cases this
    · simpa [isSlash] using hc
  obtain ⟨segs', ps, ht, -⟩ := C85_every_target r hr
  obtain ⟨q', h1, h2⟩ := C85_target ⟨fun _ => none⟩ _ hv _ _ ht
  rw [h ⟨fun _ => none⟩] at h1
  cases h1
  rw [h2]
  exact ht

section
variable [FloatText]

theorem requestPath_texts {e : EntryPoint} {p : Option Val} {path : Str}
    (h : requestPath e p = .ok path) :
    ∃ texts, PathTexts e p texts ∧ path = texts.foldl pushSegment ['/'] := by
  cases p with
  | none =>
    rw [requestPath] at h
    split at h
    · cases h
    · next hv => cases h; exact ⟨_, .none hv, rfl⟩
  | some v =>
    rw [requestPath] at h
    by_cases hx : ∃ vs ss, PathArgs v vs ∧ SentAll vs ss ∧ vs.length = varCount e
    · obtain ⟨vs, ss, hv, hss, hl⟩ := hx
      rw [(C69_path e ['/'] v).1 vs ss hv hss hl] at h
      cases h
      exact ⟨_, .args hv hss hl, rfl⟩
    · rw [(C69_path e ['/'] v).2 hx] at h
      cases h

theorem requestQuery_entries {q : Option Val} {query : Option Str}
    (h : requestQuery q = .ok query) :
    ∃ ps, QueryEntries q ps ∧ formParse (query.getD []) = ps ∧
      ∀ q ∈ query, ∀ c ∈ q, QueryChar c := by
  cases q with
  | none => cases h; exact ⟨_, .none, rfl, by simp⟩
  | some v =>
    obtain ⟨text, htext, h⟩ := Res.bind_ok_eq h
    cases h
    by_cases hw : ∃ ps, Written SentOpt id v ps
    · obtain ⟨ps, hw⟩ := hw
      obtain ⟨q, h1, h2⟩ := (C69_query v).1 ps hw
      rw [htext] at h1
      cases h1
      exact ⟨ps, .some hw, h2, by
        obtain ⟨st, h3, h4⟩ := QuerySer.ser_written hw
        rw [serQuery, h3] at htext
        cases htext
        intro q hq
        cases hq
        rw [h4]
        exact fun c hc => formText_queryChar hc⟩
    · rw [(C69_query v).2 hw] at htext
      cases htext

theorem sent_target {m : Method} {e : EntryPoint} {p q hh : Option Val} {body : Bytes} {r : Request}
    (hsafe : SafeTarget r.target) (hreq : requestOf m e p q hh body = .ok r) {texts : List Str}
    (hpath : requestPath e p = .ok (texts.foldl pushSegment ['/'])) :
    ∃ ps segs, QueryEntries q ps ∧ TargetOf r.target segs ps ∧
      (segs = texts.map asSegment ↔ Carried texts) ∧
      (segs.map pctDecode = texts.map (fun s => utf8 (strip s)) ↔ Carried texts) := by
  rw [requestOf, hpath] at hreq
  obtain ⟨query, hquery, hreq⟩ := Res.bind_ok_eq (r := requestQuery q) hreq
  obtain ⟨own, hown, hreq⟩ := Res.bind_ok_eq hreq
  obtain ⟨ps, hp, hps, hqc⟩ := requestQuery_entries hquery
  obtain ⟨segs, hsg, hiff⟩ := shape_iff texts
  have htarget : r.target = joinTarget (texts.foldl pushSegment ['/']) query := by
    cases hreq; cases query <;> rfl
  have hparse : ∀ o, parseTarget o r.target = some ⟨some segs, query⟩ := by
    intro o
    obtain ⟨segs', h1, h2, -⟩ := parseTarget_pushed o texts query hqc
    rw [hsg] at h1
    cases h1
    rw [htarget, h2]
  have hto := targetOf_parsed (t := r.target) (by
      revert hsafe; generalize r.target = t; intro hsafe; cases hsafe <;> exact ⟨_, rfl⟩)
    (fun c hc => ((Http.target_chars hsafe).2 c hc).1) hparse
  rw [hps] at hto
  refine ⟨ps, segs, hp, hto, ⟨fun hc => hiff.1 ?_, fun hc => ?_⟩, hiff⟩
  · rw [hc, List.map_map]
    refine List.map_congr_left fun s _ => ?_
    rw [Function.comp_apply, ← encode_written, pctDecode_encodeSegment]
  · have h2 := parseTarget_push ⟨fun _ => none⟩ hc query hqc
    rw [← htarget, hparse] at h2
    cases h2
    rw [asSegment_eq]

/-- **C94.** The target of a request, read by the rules of URLs alone, has the parameters of the query
field. It has the segments of the entry point with the arguments in their places exactly if a URL can
carry them. -/
theorem C94_sent_target (m : Method) (e : EntryPoint) (fs : List (Str × Val)) (hd : DistinctNames fs)
    (body : Bytes) (r : Request) (h : serRequest m e (.struct fs) body = .ok r) :
    ∃ texts ps segs, PathTexts e (fs.lookup "path".toList) texts ∧
      QueryEntries (fs.lookup "query".toList) ps ∧ TargetOf r.target segs ps ∧
      (segs = texts.map asSegment ↔ Carried texts) ∧
      (segs.map pctDecode = texts.map (fun s => utf8 (strip s)) ↔ Carried texts) := by
  have hsafe := C66_target_safe m e _ body r h
  obtain ⟨p, q, hh, rfl, -, hreq⟩ := C23_only_in_order m e fs hd body r h
  have l1 : (requestFields p q hh).lookup "path".toList = p := by
    cases p <;> cases q <;> cases hh <;> rfl
  have l2 : (requestFields p q hh).lookup "query".toList = q := by
    cases p <;> cases q <;> cases hh <;> rfl
  rw [l1, l2]
  have hreq' := hreq
  rw [requestOf] at hreq'
  obtain ⟨path, hpath, -⟩ := Res.bind_ok_eq hreq'
  obtain ⟨texts, ht, rfl⟩ := requestPath_texts hpath
  obtain ⟨ps, segs, hrest⟩ := sent_target hsafe hreq hpath
  exact ⟨texts, ps, segs, ht, hrest⟩

/-- C08, exact, for the target on the wire: whatever the query is, the segments that the rules of URLs
find in it are those of the entry point with the arguments in their places exactly if a URL can carry
them. -/
theorem C08_on_the_wire (m : Method) (e : EntryPoint) (v : Val) (vs : List Val) (hv : PathArgs v vs)
    (ss : List Str) (hs : SentAll vs ss) (harity : vs.length = varCount e) (q hh : Option Val)
    (body : Bytes) (r : Request)
    (h : serRequest m e (.struct (requestFields (some v) q hh)) body = .ok r) :
    ∃ segs ps, TargetOf r.target segs ps ∧
      (segs = (instantiate e ss).map asSegment ↔
        Carried (instantiate e ss)) := by
  have hsafe := C66_target_safe m e _ body r h
  rw [C23_in_order, if_neg (by simp)] at h
  obtain ⟨ps, segs, -, h1, h2, -⟩ := sent_target hsafe h
    (by rw [requestPath, (C69_path e ['/'] v).1 vs ss hv hs harity])
  exact ⟨segs, ps, h1, h2⟩

omit [FloatText] in
/-- **C94.** There is nothing else to read in it. -/
theorem C94_unique (t : Str) (segs segs' : List Str) (ps ps' : List (Str × Str))
    (h : TargetOf t segs ps) (h' : TargetOf t segs' ps') : segs = segs' ∧ ps = ps' := by
  obtain ⟨p, q, L, ho, -⟩ := id h
  obtain ⟨r, rfl, hr, -⟩ := pathQuery_origin ho
  obtain ⟨s, x, -, hu⟩ := C85_every_target r fun c s hc => by
    simpa [isSlash] using hr c s hc
  obtain ⟨rfl, rfl⟩ := hu _ _ h
  obtain ⟨rfl, rfl⟩ := hu _ _ h'
  exact ⟨rfl, rfl⟩

/-- `C94_sent_target` and `C08_on_the_wire`: question mark and slash in an argument, ampersand in a
value of the query. -/
example (m : Method) : ∃ r segs ps,
    serRequest m [.val "a".toList, .var] (.struct (requestFields
      (some (.tuple [.str "?/".toList])) (some (.struct [("k".toList, .str "1&2".toList)])) none)) []
      = .ok r ∧ TargetOf r.target segs ps ∧ segs = ["a".toList, "%3F%2F".toList] ∧
      ps = [("k".toList, "1&2".toList)] := by
  have hr : serRequest m [.val "a".toList, .var] (.struct (requestFields
      (some (.tuple [.str "?/".toList])) (some (.struct [("k".toList, .str "1&2".toList)])) none)) []
      = .ok _ := rfl
  obtain ⟨texts, ps, segs, h1, h2, h3, h4, -⟩ := C94_sent_target _ _ _ (by unfold DistinctNames; decide) _ _ hr
  refine ⟨_, segs, ps, hr, h3, ?_, ?_⟩
  · cases h1 with
    | args hv hs hl =>
      cases hv
      cases hs with
      | cons hs hss =>
      cases hs
      cases hss
      rw [h4.2 ⟨by simp [instantiate], by decide, .inr ⟨_, rfl, by decide⟩⟩]
      decide
  · cases h2 with
    | some hw =>
      cases hw with
      | single h => cases h with | sent h => cases h
      | struct h =>
        cases h with
        | present h hs =>
          cases h with
          | sent h => cases h; cases hs; rfl
        | absent h => cases h

end
end Htrpc
