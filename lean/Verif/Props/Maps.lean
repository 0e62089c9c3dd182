/-
Properties of maps as queries and headers (C18, C70, C71).
-/
import Verif.Lemmas.Maps
import Verif.Lemmas.ToyFloat
import Verif.Props.Accept

namespace Htrpc
open Spec

section
variable [FloatText]

/-! ### C70: repeated names -/

/-- **C70**, queries. Whatever the query, a map is read from it entry by entry; if all names and
values can be read, each key has the value of its last occurrence, otherwise it is `Invalid`. -/
theorem C70_query_map_read (k v : Ty) (q : Option Str) :
    (∃ es m, readEntries readText k v (formParse (q.getD [])) = some es ∧ MapOf es m ∧
      deQuery (.map k v) q = .ok (.map m)) ∨
    (readEntries readText k v (formParse (q.getD [])) = none ∧
      deQuery (.map k v) q = .err .invalid) := by
  have h := deQuery_entries k v q
  cases hr : readEntries readText k v (formParse (q.getD [])) with
  | none => rw [hr] at h; exact .inr ⟨rfl, h⟩
  | some es => rw [hr] at h; exact .inl ⟨es, _, rfl, insertAll_mapOf es, h⟩

/-- **C70**, headers. The same with the headers, whose names are in lower case. -/
theorem C70_header_map_read (k v : Ty) (hs : List Header) (hn : AsciiNames hs) :
    let read := readEntries readBytes k v (hs.map fun h => (utf8 (nameText h.1), h.2))
    (∃ es m, read = some es ∧ MapOf es m ∧ deHeaders (.map k v) hs = .ok (.map m)) ∨
    (read = none ∧ deHeaders (.map k v) hs = .err .invalid) := by
  intro read
  have h := deHeaders_entries k v hs
  have he : (hs.map fun h => (lowerName h.1, h.2)) = hs.map fun h => (utf8 (nameText h.1), h.2) :=
    List.map_congr_left fun x hx => by rw [lowerName_utf8 (hn x hx)]
  rw [he] at h
  change deHeaders (.map k v) hs = match read with
    | some es => .ok (.map (insertAll es []))
    | none => .err .invalid at h
  cases hr : read with
  | none => rw [hr] at h; exact .inr ⟨rfl, h⟩
  | some es => rw [hr] at h; exact .inl ⟨es, _, rfl, insertAll_mapOf es, h⟩

theorem readEntries_str (ps : List (Str × Str)) :
    readEntries readText .str .str ps = some (ps.map fun p => (.str p.1, .str p.2)) := by
  induction ps with
  | nil => rfl
  | cons p ps ih => obtain ⟨a, b⟩ := p; simp [readEntries, readText, ih]

/-- **C70**, a parameter that occurs twice: unlike for a struct (C17) there is no error, and the last
value silently wins. -/
theorem C70_query_last_wins (pre mid post : List (Str × Str)) (n x y : Str)
    (hl : ∀ p ∈ post, p.1 ≠ n) (q : Option Str)
    (hq : formParse (q.getD []) = pre ++ (n, x) :: mid ++ (n, y) :: post) :
    ∃ m, deQuery (.map .str .str) q = .ok (.map m) ∧
      (∀ z, (.str n, z) ∈ m ↔ z = .str y) := by
  rcases C70_query_map_read .str .str q with ⟨es, m, h1, h2, h3⟩ | ⟨h1, _⟩
  · refine ⟨m, h3, fun z => ?_⟩
    rw [hq, readEntries_str] at h1
    cases h1
    have hy : (Val.str n, Val.str y) ∈ m := by
      refine (h2.2 _ _).2 ⟨(pre ++ (n, x) :: mid).map fun p => (.str p.1, .str p.2),
        post.map fun p => (.str p.1, .str p.2), by simp, ?_⟩
      intro e he
      obtain ⟨p, hp, rfl⟩ := List.mem_map.1 he
      intro h
      injection h with h
      exact hl p hp h
    refine ⟨fun hz => ?_, fun hz => hz ▸ hy⟩
    exact h2.1.unique hz hy
  · rw [readEntries_str] at h1; cases h1

/-! ### C71: header maps -/

omit [FloatText] in
theorem readEntries_none {β : Type} {read : Ty → β → Option Val} {k v : Ty} {es : List (β × β)}
    {e : β × β} (he : e ∈ es) (h : read v e.2 = none) : readEntries read k v es = none := by
  induction es with
  | nil => cases he
  | cons x es ih =>
    obtain ⟨a, b⟩ := x
    rw [readEntries]
    rcases List.mem_cons.1 he with rfl | he
    · simp only at h
      rw [h]
      cases read k a <;> rfl
    · rw [ih he]
      cases read k a <;> cases read v b <;> rfl

/-- **C71**, foreign headers: a map takes all headers of a message, so that one header which is no
value of the map's type, such as one added by the transport, makes it `Invalid`. -/
theorem C71_foreign_rejected (k v : Ty) (hs : List Header) (h : Header) (hh : h ∈ hs)
    (hr : readBytes v h.2 = none) : deHeaders (.map k v) hs = .err .invalid := by
  have hm : (lowerName h.1, h.2) ∈ hs.map fun h => (lowerName h.1, h.2) :=
    List.mem_map.2 ⟨h, hh, rfl⟩
  rw [deHeaders_entries, readEntries_none hm hr]

theorem readEntries_map {v : Ty} {hs : List Header} (hn : AsciiNames hs) (f : Header → Val)
    (hf : ∀ h ∈ hs, readBytes v h.2 = some (f h)) :
    readEntries readBytes .str v (hs.map fun h => (lowerName h.1, h.2)) =
      some (hs.map fun h => (.str (nameText h.1), f h)) := by
  induction hs with
  | nil => rfl
  | cons h hs ih =>
    have hh := List.mem_cons_self (a := h) (l := hs)
    rw [List.map_cons, readEntries, ih (fun x hx => hn x (List.mem_cons_of_mem _ hx))
      (fun x hx => hf x (List.mem_cons_of_mem _ hx)), hf h hh, readBytes,
      fromUtf8_lowerName (hn h hh)]
    rfl

theorem Spec.HeaderMap.entries {kvs : List (Val × Val)} {es : List (Str × Bytes)}
    (h : HeaderMap kvs es) : MapEntries SentHeader kvs (es.map fun e => (utf8 e.1, e.2)) := by
  induction h with
  | nil => exact .nil
  | cons _ hv _ ih => exact .present (.sent (.str _)) hv.sent ih

end

section
variable [LawfulFloatText]

/-- **C71.** A map with lower case names as keys and plain values is written as one header per entry,
behind those already there. From every list of headers that consists of these and others with
different names, all readable as values of the map, the receiver gets a map with all entries that
were sent; its other entries are the other headers. -/
theorem C71_header_map_arrives (kvs : List (Val × Val)) (vt : Ty) (es : List (Str × Bytes))
    (hp : HeaderMap kvs es) (ht : HasTyMap kvs .str vt) (hd : DistinctKeys kvs) :
    ∃ own, (∀ before, serHeaders before (.map kvs) = .ok (before ++ own)) ∧
      ∀ hs, AsciiNames hs → (hs.filter fun h => decide (.str (nameText h.1) ∈ kvs.map Prod.fst)) = own →
        (∀ h ∈ hs, .str (nameText h.1) ∉ kvs.map Prod.fst → (readBytes vt h.2).isSome) →
        ∃ m, deHeaders (.map .str vt) hs = .ok (.map m) ∧ DistinctKeys m ∧
          (∀ e ∈ kvs, e ∈ m) ∧
          ∀ e ∈ m, e ∈ kvs ∨ ∃ h ∈ hs, .str (nameText h.1) ∉ kvs.map Prod.fst ∧
            e.1 = .str (nameText h.1) ∧ readBytes vt h.2 = some e.2 := by
  refine ⟨es.map fun e => (utf8 e.1, e.2), fun before => (C69_headers _ before).1 _ (.map hp.entries), ?_⟩
  intro hs hn ho hr
  -- what is known about the headers that were sent
  have h1 : ∀ h ∈ es.map (fun e => (utf8 e.1, e.2)), ∃ v, (.str (nameText h.1), v) ∈ kvs ∧
      readBytes vt h.2 = some v := by
    clear ho hr hd
    induction hp with
    | nil => simp
    | @cons n v b kvs es hl hv _ ih =>
      cases ht with
      | cons _ t2 t3 =>
        intro h hh
        rcases List.mem_cons.1 hh with rfl | hh
        · exact ⟨v, by rw [nameText_utf8 hl]; exact List.mem_cons_self ..,
            readBytes_of_plainHeader hv t2⟩
        · obtain ⟨w, h1, h2⟩ := ih t3 h hh
          exact ⟨w, List.mem_cons_of_mem _ h1, h2⟩
  have h2 : ∀ e ∈ kvs, ∃ h ∈ es.map (fun e => (utf8 e.1, e.2)), e.1 = .str (nameText h.1) ∧
      readBytes vt h.2 = some e.2 := by
    clear ho hr hd h1
    induction hp with
    | nil => simp
    | @cons n v b kvs es hl hv _ ih =>
      cases ht with
      | cons _ t2 t3 =>
        intro e he
        rcases List.mem_cons.1 he with rfl | he
        · exact ⟨_, List.mem_cons_self .., by rw [nameText_utf8 hl], readBytes_of_plainHeader hv t2⟩
        · obtain ⟨h, h1, h2⟩ := ih t3 e he
          exact ⟨h, List.mem_cons_of_mem _ h1, h2⟩
  have h3 : (es.map fun e => (utf8 e.1, e.2)).map (fun h => Val.str (nameText h.1)) =
      kvs.map Prod.fst := by
    clear ho hr hd h1 h2
    induction hp with
    | nil => rfl
    | @cons n v b kvs es hl hv _ ih =>
      cases ht with
      | cons _ _ t3 =>
        rw [List.map_cons, List.map_cons, List.map_cons, ih t3, nameText_utf8 hl]
  have hmem : ∀ h ∈ hs, .str (nameText h.1) ∈ kvs.map Prod.fst →
      h ∈ es.map (fun e => (utf8 e.1, e.2)) := by
    intro h hh hk
    rw [← ho]
    exact List.mem_filter.2 ⟨hh, by simpa using hk⟩
  have hread : ∀ h ∈ hs, readBytes vt h.2 = some ((readBytes vt h.2).getD .unit) := by
    intro h hh
    by_cases hk : .str (nameText h.1) ∈ kvs.map Prod.fst
    · obtain ⟨v, _, hv⟩ := h1 h (hmem h hh hk)
      rw [hv]; rfl
    · have := hr h hh hk
      cases hx : readBytes vt h.2 with
      | none => rw [hx] at this; cases this
      | some v => rfl
  have hm := insertAll_mapOf (hs.map fun h => (.str (nameText h.1), (readBytes vt h.2).getD .unit))
  refine ⟨_, by rw [deHeaders_entries, readEntries_map hn _ hread], hm.1, ?_, ?_⟩
  · intro e he
    obtain ⟨h, hh, ha, hb⟩ := h2 e he
    obtain ⟨a, b⟩ := e
    simp only at ha hb
    subst ha
    refine (hm.2 _ _).2 ?_
    have hhs : h ∈ hs := by rw [← ho] at hh; exact (List.mem_filter.1 hh).1
    obtain ⟨pre, post, rfl⟩ := List.append_of_mem hhs
    refine ⟨pre.map fun h => (.str (nameText h.1), (readBytes vt h.2).getD .unit),
      post.map fun h => (.str (nameText h.1), (readBytes vt h.2).getD .unit), by simp [hb], ?_⟩
    intro e he
    obtain ⟨x, hx, rfl⟩ := List.mem_map.1 he
    intro heq
    simp only at heq
    have hk : Val.str (nameText h.1) ∈ kvs.map Prod.fst := List.mem_map.2 ⟨_, by assumption, rfl⟩
    unfold DistinctKeys at hd
    rw [← h3, ← ho, List.filter_append, List.filter_cons, if_pos (by simpa using hk),
      List.map_append, List.map_cons, List.nodup_append, List.nodup_cons] at hd
    refine hd.2.1.1 (List.mem_map.2 ⟨x, List.mem_filter.2 ⟨hx, ?_⟩, heq⟩)
    rw [heq]
    simpa using hk
  · rintro ⟨a, b⟩ he
    obtain ⟨before, after, heq, _⟩ := (hm.2 a b).1 he
    have : (a, b) ∈ hs.map fun h => (.str (nameText h.1), (readBytes vt h.2).getD .unit) := by
      rw [heq]; simp
    obtain ⟨h, hh, hab⟩ := List.mem_map.1 this
    injection hab with ha hb
    subst ha hb
    by_cases hk : .str (nameText h.1) ∈ kvs.map Prod.fst
    · obtain ⟨v, hv, hrv⟩ := h1 h (hmem h hh hk)
      rw [hrv]
      exact .inl hv
    · exact .inr ⟨h, hh, hk, rfl, hread h hh⟩

/-! ### C18: entries without a value -/

omit [LawfulFloatText] in
theorem Spec.PlainOpt.not_omitted [FloatText] {v : Val} {s : Str} (h : PlainOpt v s) : ¬ Omitted v := by
  induction h with
  | plain h =>
    induction h with
    | newtype _ ih => intro h; cases h with | newtypeStruct h => exact ih h
    | _ => intro h; cases h
  | some _ ih => intro h; cases h with | some h => exact ih h
  | newtype _ ih => intro h; cases h with | newtypeStruct h => exact ih h

omit [LawfulFloatText] in
theorem Spec.MapEntries.sent [FloatText] {kvs : List (Val × Val)} {ps : List (Str × Str)}
    (h : MapEntries PlainOpt kvs ps) : MapEntries SentOpt kvs ps := by
  induction h with
  | nil => exact .nil
  | absent ha hv _ ih => exact .absent ha.sent hv ih
  | present ha hb _ ih => exact .present ha.sent hb.sent ih

theorem readEntries_texts {kvs : List (Val × Val)} {ps : List (Str × Str)}
    (h : MapEntries PlainOpt kvs ps) {k v : Ty} (ht : HasTyMap kvs k v) :
    ∃ m, readEntries readText k v ps = some m ∧ m.Sublist kvs ∧
      (∀ e ∈ kvs, Omitted e.2 ∨ e ∈ m) ∧ ∀ e ∈ m, ¬ Omitted e.2 := by
  induction h with
  | nil => exact ⟨[], rfl, .slnil, by simp, by simp⟩
  | absent _ hv _ ih =>
    cases ht with
    | cons _ _ t3 =>
      obtain ⟨m, h1, h2, h3, h4⟩ := ih t3
      refine ⟨m, h1, h2.cons _, ?_, h4⟩
      intro e he
      rcases List.mem_cons.1 he with rfl | he
      · exact .inl hv
      · exact h3 e he
  | present ha hb _ ih =>
    cases ht with
    | cons t1 t2 t3 =>
      obtain ⟨m, h1, h2, h3, h4⟩ := ih t3
      refine ⟨_, by rw [readEntries, readText_of_plainOpt ha t1, readText_of_plainOpt hb t2, h1],
        h2.cons_cons _, ?_, ?_⟩
      · intro e he
        rcases List.mem_cons.1 he with rfl | he
        · exact .inr (List.mem_cons_self ..)
        · exact (h3 e he).imp_right (List.mem_cons_of_mem _)
      · intro e he
        rcases List.mem_cons.1 he with rfl | he
        · exact hb.not_omitted
        · exact h4 e he

/-- **C18**, entries without a value: those with the value `None` are lost, the others arrive. -/
theorem C18_none_lost (kvs : List (Val × Val)) (k v : Ty) (ps : List (Str × Str))
    (h : MapEntries PlainOpt kvs ps) (ht : HasTyMap kvs k v) (hd : DistinctKeys kvs) :
    ∃ q m, serQuery (.map kvs) = .ok q ∧ deQuery (.map k v) (some q) = .ok (.map m) ∧
      m.Sublist kvs ∧ ∀ e ∈ kvs, e ∈ m ↔ ¬ Omitted e.2 := by
  obtain ⟨q, h1, h2⟩ := (C69_query (.map kvs)).1 ps (.map h.sent)
  obtain ⟨m, h3, h4, h5, h6⟩ := readEntries_texts h ht
  have hdm : DistinctKeys m := by
    unfold DistinctKeys at *
    exact (h4.map _).nodup hd
  refine ⟨q, m, h1, ?_, h4, fun e he => ⟨fun hm => h6 e hm, fun ho => (h5 e he).resolve_left ho⟩⟩
  rw [deQuery_entries, Option.getD_some, h2, h3]
  simp only [insertAll_distinct hdm]

end

/-! ### Examples -/

section Examples

-- `a=1&b=2&a=3` as a map: the second `a` wins
example : letI := toyFloat
    ∃ m, deQuery (.map .str .str) (some "a=1&b=2&a=3".toList) = .ok (.map m) ∧
      ∀ z, (.str "a".toList, z) ∈ m ↔ z = .str "3".toList :=
  letI := toyFloat
  C70_query_last_wins [] [("b".toList, "2".toList)] [] "a".toList "1".toList "3".toList (by simp) _
    (by decide)

-- a map of strings to numbers cannot be received if there is a header `host: foo`
example : letI := toyFloat
    deHeaders (.map .str (.int .u8)) [(utf8 "x".toList, utf8 "1".toList),
      (utf8 "host".toList, utf8 "foo".toList)] = .err .invalid :=
  letI := toyFloat
  C71_foreign_rejected _ _ _ (utf8 "host".toList, utf8 "foo".toList) (by simp) (by decide)

-- a map of strings is received together with `Content-Length`
example : letI := toyFloat
    ∃ m, deHeaders (.map .str .str) [(utf8 "Content-Length".toList, utf8 "0".toList),
        (utf8 "x".toList, utf8 "1".toList)] = .ok (.map m) ∧
      (Val.str "x".toList, Val.str "1".toList) ∈ m := by
  let := toyFloat
  obtain ⟨own, h1, h2⟩ := C71_header_map_arrives [(.str "x".toList, .str "1".toList)] .str
    [("x".toList, utf8 "1".toList)] (.cons (by decide) (.plain (.str _)) .nil)
    (.cons (.str _) (.str _) (.nil _ _)) (by unfold DistinctKeys; decide)
  have h1 := h1 []
  obtain ⟨m, h3, _, h4, _⟩ := h2 [(utf8 "Content-Length".toList, utf8 "0".toList),
    (utf8 "x".toList, utf8 "1".toList)] (by unfold AsciiNames; decide) (by
      have : serHeaders [] (.map [(.str "x".toList, .str "1".toList)]) =
        .ok ([] ++ [(utf8 "x".toList, utf8 "1".toList)]) := rfl
      rw [this] at h1
      injection h1) (by decide)
  exact ⟨m, h3, h4 _ (by simp)⟩

-- the entry `b` without a value is lost
example : letI := toyFloat
    ∃ q m, serQuery (.map [(.str "a".toList, .some (.str "1".toList)), (.str "b".toList, .none)]) =
        .ok q ∧ deQuery (.map .str (.option .str)) (some q) = .ok (.map m) ∧
      (Val.str "a".toList, Val.some (.str "1".toList)) ∈ m ∧ (Val.str "b".toList, Val.none) ∉ m := by
  let := toyFloat
  obtain ⟨q, m, h1, h2, _, h3⟩ := C18_none_lost
    [(.str "a".toList, .some (.str "1".toList)), (.str "b".toList, .none)] .str (.option .str)
    [("a".toList, "1".toList)]
    (.present (.plain (.str _)) (.some (.plain (.str _))) (.absent (.plain (.str _)) .none .nil))
    (.cons (.str _) (.some (.str _)) (.cons (.str _) (.none _) (.nil _ _)))
    (by unfold DistinctKeys; decide)
  exact ⟨q, m, h1, h2, (h3 _ (by simp)).2 (by rintro (_ | h); cases h),
    fun h => (h3 _ (by simp)).1 h .none⟩

end Examples

end Htrpc
