/-
Maps made by inserting entries one after the other.
-/
import Verif.Spec.Maps
import Verif.Lemmas.Header

namespace Htrpc
open Spec

theorem Spec.DistinctKeys.unique {m : List (Val × Val)} (hd : DistinctKeys m) {a b c : Val}
    (hb : (a, b) ∈ m) (hc : (a, c) ∈ m) : b = c := by
  induction m with
  | nil => cases hb
  | cons e m ih =>
    unfold DistinctKeys at hd ih
    rw [List.map_cons, List.nodup_cons] at hd
    rcases List.mem_cons.1 hb with h | h <;> rcases List.mem_cons.1 hc with h' | h'
    · rw [← h] at h'; injection h' with _ h; exact h.symm
    · subst h; exact absurd (List.mem_map.2 ⟨_, h', rfl⟩) hd.1
    · subst h'; exact absurd (List.mem_map.2 ⟨_, h, rfl⟩) hd.1
    · exact ih hd.2 h h'

/-- Inserting entries with different keys changes nothing. -/
theorem insertAll_distinct_aux (es acc : List (Val × Val)) (h : DistinctKeys (acc ++ es)) :
    es.foldl (fun m e => mapInsert e.1 e.2 m) acc = acc ++ es := by
  induction es generalizing acc with
  | nil => simp
  | cons e es ih =>
    have hn : e.1 ∉ acc.map Prod.fst := by
      unfold DistinctKeys at h
      rw [List.map_append, List.nodup_append] at h
      intro hk
      exact h.2.2 e.1 hk e.1 (by simp) rfl
    rw [List.foldl_cons, mapInsert_new hn, ih _ (by simpa using h)]
    simp

/-- Insert all entries. -/
def insertAll (es m : List (Val × Val)) : List (Val × Val) :=
  es.foldl (fun m e => mapInsert e.1 e.2 m) m

theorem mapInsert_keys (k v : Val) (m : List (Val × Val)) :
    (mapInsert k v m).map Prod.fst =
      if k ∈ m.map Prod.fst then m.map Prod.fst else m.map Prod.fst ++ [k] := by
  induction m with
  | nil => rfl
  | cons e m ih =>
    rw [mapInsert]
    by_cases h : e.1 = k
    · simp [h]
    · simp only [h, if_false, List.map_cons, ih, List.mem_cons, Ne.symm h, false_or]
      split <;> rfl

theorem mapInsert_distinct {k v : Val} {m : List (Val × Val)} (h : DistinctKeys m) :
    DistinctKeys (mapInsert k v m) := by
  unfold DistinctKeys at *
  rw [mapInsert_keys]
  split
  · exact h
  · rename_i hk
    rw [List.nodup_append]
    refine ⟨h, by simp, ?_⟩
    intro a ha b hb
    simp only [List.mem_singleton] at hb
    subst hb
    intro hab
    exact hk (hab ▸ ha)

theorem mem_mapInsert {k v : Val} {m : List (Val × Val)} (h : DistinctKeys m) (a b : Val) :
    (a, b) ∈ mapInsert k v m ↔ (a = k ∧ b = v) ∨ (a ≠ k ∧ (a, b) ∈ m) := by
  induction m with
  | nil =>
    simp only [mapInsert, List.mem_singleton, Prod.mk.injEq, List.not_mem_nil, and_false, or_false]
  | cons e m ih =>
    obtain ⟨k', v'⟩ := e
    unfold DistinctKeys at h ih
    rw [List.map_cons, List.nodup_cons] at h
    have ih := ih h.2
    rw [mapInsert]
    by_cases hk : k' = k
    · subst hk
      rw [if_pos rfl]
      simp only [List.mem_cons, Prod.mk.injEq]
      constructor
      · rintro (⟨rfl, rfl⟩ | hm)
        · exact .inl ⟨rfl, rfl⟩
        · refine .inr ⟨?_, .inr hm⟩
          rintro rfl
          exact h.1 (List.mem_map.2 ⟨_, hm, rfl⟩)
      · rintro (⟨rfl, rfl⟩ | ⟨hne, ⟨rfl, _⟩ | hm⟩)
        · exact .inl ⟨rfl, rfl⟩
        · exact absurd rfl hne
        · exact .inr hm
    · rw [if_neg hk]
      simp only [List.mem_cons, Prod.mk.injEq, ih]
      constructor
      · rintro (⟨rfl, rfl⟩ | ⟨rfl, rfl⟩ | ⟨hne, hm⟩)
        · exact .inr ⟨hk, .inl ⟨rfl, rfl⟩⟩
        · exact .inl ⟨rfl, rfl⟩
        · exact .inr ⟨hne, .inr hm⟩
      · rintro (⟨rfl, rfl⟩ | ⟨hne, ⟨rfl, rfl⟩ | hm⟩)
        · exact .inr (.inl ⟨rfl, rfl⟩)
        · exact .inl ⟨rfl, rfl⟩
        · exact .inr (.inr ⟨hne, hm⟩)

theorem lastEntry_cons {k v a b : Val} {es : List (Val × Val)} :
    LastEntry ((k, v) :: es) a b ↔ LastEntry es a b ∨ (a = k ∧ b = v ∧ ∀ e ∈ es, e.1 ≠ a) := by
  constructor
  · rintro ⟨before, after, h, hn⟩
    cases before with
    | nil =>
      simp only [List.nil_append, List.cons.injEq, Prod.mk.injEq] at h
      obtain ⟨⟨rfl, rfl⟩, rfl⟩ := h
      exact .inr ⟨rfl, rfl, hn⟩
    | cons x before =>
      simp only [List.cons_append, List.cons.injEq] at h
      exact .inl ⟨before, after, h.2, hn⟩
  · rintro (⟨before, after, rfl, hn⟩ | ⟨rfl, rfl, hn⟩)
    · exact ⟨(k, v) :: before, after, rfl, hn⟩
    · exact ⟨[], es, rfl, hn⟩

theorem insertAll_spec (es : List (Val × Val)) {m : List (Val × Val)} (h : DistinctKeys m) :
    DistinctKeys (insertAll es m) ∧ ∀ a b, (a, b) ∈ insertAll es m ↔
      LastEntry es a b ∨ ((a, b) ∈ m ∧ ∀ e ∈ es, e.1 ≠ a) := by
  induction es generalizing m with
  | nil =>
    refine ⟨h, fun a b => ?_⟩
    have : ¬ LastEntry [] a b := by rintro ⟨x, y, h, _⟩; simp at h
    simp [insertAll, this]
  | cons e es ih =>
    obtain ⟨k, v⟩ := e
    obtain ⟨h1, h2⟩ := ih (mapInsert_distinct (k := k) (v := v) h)
    refine ⟨h1, fun a b => ?_⟩
    rw [insertAll, List.foldl_cons]
    refine (h2 a b).trans ?_
    rw [mem_mapInsert h, lastEntry_cons]
    constructor
    · rintro (hl | ⟨⟨rfl, rfl⟩ | ⟨hne, hm⟩, hn⟩)
      · exact .inl (.inl hl)
      · exact .inl (.inr ⟨rfl, rfl, hn⟩)
      · refine .inr ⟨hm, ?_⟩
        intro e he
        rcases List.mem_cons.1 he with rfl | he
        · exact Ne.symm hne
        · exact hn e he
    · rintro ((hl | ⟨rfl, rfl, hn⟩) | ⟨hm, hn⟩)
      · exact .inl hl
      · exact .inr ⟨.inl ⟨rfl, rfl⟩, hn⟩
      · exact .inr ⟨.inr ⟨Ne.symm (hn _ (List.mem_cons_self ..)), hm⟩,
          fun e he => hn e (List.mem_cons_of_mem _ he)⟩

theorem insertAll_distinct {es : List (Val × Val)} (h : DistinctKeys es) : insertAll es [] = es :=
  insertAll_distinct_aux es [] h

theorem insertAll_mapOf (es : List (Val × Val)) : MapOf es (insertAll es []) := by
  obtain ⟨h1, h2⟩ := insertAll_spec es (m := []) List.nodup_nil
  exact ⟨h1, fun a b => by simp [h2]⟩

variable [FloatText]

theorem QueryDe.visitMap_read (k v : Ty) (ps : List (Str × Str)) (acc : List (Val × Val))
    (fuel : Nat) (hf : ps.length < fuel) :
    visitMap (fun st : QueryDe => decide (st.pairs = [])) (de k) (de v) fuel acc ⟨true, none, ps⟩ =
      match readEntries readText k v ps with
      | some es => .ok (insertAll es acc, ⟨true, none, []⟩)
      | none => .err .invalid := by
  induction ps generalizing acc fuel with
  | nil =>
    cases fuel with
    | zero => simp at hf
    | succ fuel => simp [visitMap, readEntries, insertAll]
  | cons p ps ih =>
    obtain ⟨a, b⟩ := p
    cases fuel with
    | zero => simp at hf
    | succ fuel =>
      simp only [visitMap, readEntries]
      rw [if_neg (by simp), de_text (s := a) (st' := ⟨true, some b, ps⟩) rfl rfl]
      cases readText k a with
      | none => rfl
      | some x =>
        simp only [Res.bind_ok]
        rw [de_text (s := b) (st' := ⟨true, none, ps⟩) rfl rfl]
        cases readText v b with
        | none => rfl
        | some y =>
          simp only [Res.bind_ok]
          rw [ih _ _ (by simpa using hf)]
          cases readEntries readText k v ps <;> rfl

theorem deQuery_entries (k v : Ty) (q : Option Str) :
    deQuery (.map k v) q = match readEntries readText k v (formParse (q.getD [])) with
      | some es => .ok (.map (insertAll es []))
      | none => .err .invalid := by
  rw [deQuery, QueryDe.de]
  simp only [QueryDe.enterMap, QueryDe.new, Bool.not_false, Res.check_true, Res.bind_ok,
    QueryDe.fuel]
  rw [QueryDe.visitMap_read k v _ [] _ (by omega)]
  cases readEntries readText k v (formParse (q.getD [])) <;> rfl

theorem HeaderDe.visitMap_read (k v : Ty) (hs : List Header) (acc : List (Val × Val))
    (fuel : Nat) (hf : hs.length < fuel) :
    visitMap (fun st : HeaderDe => decide (st.headers = [])) (de k) (de v) fuel acc
        ⟨true, true, hs⟩ =
      match readEntries readBytes k v (hs.map fun h => (lowerName h.1, h.2)) with
      | some es => .ok (insertAll es acc, ⟨true, true, []⟩)
      | none => .err .invalid := by
  induction hs generalizing acc fuel with
  | nil =>
    cases fuel with
    | zero => simp at hf
    | succ fuel => simp [visitMap, readEntries, insertAll]
  | cons p hs ih =>
    obtain ⟨a, b⟩ := p
    cases fuel with
    | zero => simp at hf
    | succ fuel =>
      simp only [visitMap, List.map_cons, readEntries]
      rw [if_neg (by simp), de_bytes (b := lowerName a) (st' := ⟨true, false, (a, b) :: hs⟩) rfl rfl]
      cases readBytes k (lowerName a) with
      | none => rfl
      | some x =>
        simp only [Res.bind_ok]
        rw [de_bytes (b := b) (st' := ⟨true, true, hs⟩) rfl rfl]
        cases readBytes v b with
        | none => rfl
        | some y =>
          simp only [Res.bind_ok]
          rw [ih _ _ (by simpa using hf)]
          cases readEntries readBytes k v (hs.map fun h => (lowerName h.1, h.2)) <;> rfl

theorem deHeaders_entries (k v : Ty) (hs : List Header) :
    deHeaders (.map k v) hs =
      match readEntries readBytes k v (hs.map fun h => (lowerName h.1, h.2)) with
      | some es => .ok (.map (insertAll es []))
      | none => .err .invalid := by
  rw [deHeaders, HeaderDe.de]
  simp only [HeaderDe.enterMap, HeaderDe.new, Bool.not_false, Res.check_true, Res.bind_ok,
    HeaderDe.fuel]
  rw [HeaderDe.visitMap_read k v _ [] _ (by omega)]
  cases readEntries readBytes k v (hs.map fun h => (lowerName h.1, h.2)) <;> rfl

end Htrpc
