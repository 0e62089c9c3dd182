/-
The request targets written by the client.
-/
import Verif.Spec.Http
import Verif.Lemmas.Request
import Verif.Lemmas.Query

namespace Htrpc

/-! ### Results with a property -/

/-- Every value that results has `P`. -/
def Res.Post {α : Type} (r : Res α) (P : α → Prop) : Prop := ∀ a, r = .ok a → P a

namespace Res
variable {α β : Type}

theorem post_ok {a : α} {P : α → Prop} (h : P a) : Post (.ok a) P := by
  intro b hb; cases hb; exact h

theorem post_err {k : Kind} {P : α → Prop} : Post (.err k) P := by intro b hb; cases hb

theorem post_panic {P : α → Prop} : Post .panic P := by intro b hb; cases hb

theorem Post.bind {r : Res α} {f : α → Res β} {P : α → Prop} {Q : β → Prop} (hr : r.Post P)
    (hf : ∀ a, P a → (f a).Post Q) : (r >>= f).Post Q := by
  intro b hb
  obtain ⟨a, h1, h2⟩ := bind_eq_ok.1 hb
  exact hf a (hr a h1) b h2

theorem post_true {r : Res α} : r.Post fun _ => True := fun _ _ => trivial

end Res

/-- A character that cannot end a part of a target. -/
def GoodChar (c : Char) : Prop := 0x21 ≤ c.toNat ∧ c.toNat < 0x7F ∧ c ≠ '?' ∧ c ≠ '#'

/-- A path text. -/
def PathOk (p : Str) : Prop := ∃ r, p = '/' :: r ∧ ∀ c ∈ r, GoodChar c

theorem SegChar.good {c : Char} (h : SegChar c) : GoodChar c := by
  have hf := h.facts
  have hr := keepPath_lt h.2.1
  rw [u8_toNat (by have := h.1; omega)] at hr
  exact ⟨hr.1, hr.2, hf.1, hf.2.1⟩

theorem PathOk.mem {p : Str} (h : PathOk p) {c : Char} (hc : c ∈ p) : GoodChar c := by
  obtain ⟨r, rfl, hr⟩ := h
  rcases List.mem_cons.1 hc with rfl | hc
  · exact ⟨by decide, by decide, by decide, by decide⟩
  · exact hr c hc

theorem PathOk.append {p s : Str} (h : PathOk p) (hs : ∀ c ∈ s, GoodChar c) : PathOk (p ++ s) := by
  obtain ⟨r, rfl, hr⟩ := h
  refine ⟨r ++ s, rfl, fun c hc => ?_⟩
  rcases List.mem_append.1 hc with hc | hc
  · exact hr c hc
  · exact hs c hc

theorem PathOk.slash {p : Str} (h : PathOk p) : PathOk (p ++ ['/']) :=
  h.append fun c hc => by
    rw [List.mem_singleton.1 hc]
    exact ⟨by decide, by decide, by decide, by decide⟩

theorem dropWhile_append_last {α : Type} {p : α → Bool} (l : List α) {a : α} (h : p a = false) :
    ∃ t, (l ++ [a]).dropWhile p = t ++ [a] ∧ t <:+ l := by
  induction l with
  | nil => exact ⟨[], by simp [h], List.suffix_refl _⟩
  | cons b l ih =>
    obtain ⟨t, h1, h2⟩ := ih
    by_cases hb : p b = true
    · exact ⟨t, by simpa [hb] using h1, h2.trans (List.suffix_cons _ _)⟩
    · exact ⟨b :: l, by simp [hb], List.suffix_refl _⟩

theorem PathOk.upToLastSlash {p : Str} (h : PathOk p) : PathOk (upToLastSlash p) := by
  obtain ⟨r, rfl, hr⟩ := h
  obtain ⟨t, h1, h2⟩ := dropWhile_append_last (p := fun c : Char => decide (c ≠ '/')) r.reverse
    (a := '/') (by simp)
  rw [Htrpc.upToLastSlash, List.reverse_cons, h1, List.reverse_append]
  refine ⟨t.reverse, by simp, fun c hc => hr c ?_⟩
  have := h2.subset (List.mem_reverse.1 hc)
  exact List.mem_reverse.1 this

theorem PathOk.push {p : Str} (h : PathOk p) (s : Str) : PathOk (pushSegment p s) := by
  unfold pushSegment
  split
  · exact h
  · by_cases hl : p.length = 1
    · simp only [hl, if_true]
      split
      · exact h
      · split
        · exact h
        · exact h.append fun c hc => (segChar_encodeSegment hc).good
    · simp only [hl, if_false]
      split
      · split
        · exact h.slash
        · rw [List.dropLast_append_of_ne_nil (by simp)]
          simpa using h.upToLastSlash
      · split
        · exact h.slash
        · exact h.slash.append fun c hc => (segChar_encodeSegment hc).good

/-! ### Paths -/

namespace PathSer

theorem append_ok {p : Str} (h : PathOk p) (l : List Seg) : PathOk (appendUntilNextVar p l).1 := by
  fun_induction appendUntilNextVar p l with
  | case1 => exact h
  | case2 => exact h
  | case3 p s rest ih => exact ih (h.push s)

theorem bind_ok {st : PathSer} (h : PathOk st.path) (s : Str) :
    (bindNextVar st s).Post fun x => PathOk x.path := by
  rw [bindNextVar]
  refine Res.post_true.bind fun _ _ => ?_
  have := append_ok h st.rest
  rcases hx : appendUntilNextVar st.path st.rest with ⟨p, r, b⟩
  rw [hx] at this
  cases b
  · exact Res.post_ok (PathOk.push this s)
  · exact Res.post_err

theorem finish_ok {st : PathSer} (h : PathOk st.path) :
    (finish st).Post fun x => PathOk x.path := by
  rw [finish]
  refine Res.post_true.bind fun _ _ => ?_
  have := append_ok h st.rest
  rcases hx : appendUntilNextVar st.path st.rest with ⟨p, r, b⟩
  rw [hx] at this
  cases b
  · exact Res.post_err
  · exact Res.post_ok this

theorem start_ok {st : PathSer} (h : PathOk st.path) (n : Nat) :
    (start st n).Post fun x => PathOk x.path := by
  rw [start]
  exact Res.post_true.bind fun _ _ => Res.post_true.bind fun _ _ => Res.post_ok h

variable [FloatText]

mutual
theorem ser_ok : ∀ (v : Val) (st : PathSer), PathOk st.path →
    (ser v st).Post fun x => PathOk x.path
  | .bool _, st, h => by rw [ser]; exact bind_ok h _
  | .int _ _, st, h => by rw [ser]; exact bind_ok h _
  | .f32 _, st, h => by rw [ser]; exact bind_ok h _
  | .f64 _, st, h => by rw [ser]; exact bind_ok h _
  | .char _, st, h => by rw [ser]; exact bind_ok h _
  | .str _, st, h => by rw [ser]; exact bind_ok h _
  | .bytes _, st, h => by rw [ser]; exact Res.post_err
  | .none, st, h => by rw [ser]; exact Res.post_err
  | .some _, st, h => by rw [ser]; exact Res.post_err
  | .unit, st, h => by rw [ser]; exact (start_ok h _).bind fun _ h => finish_ok h
  | .unitStruct _, st, h => by rw [ser]; exact (start_ok h _).bind fun _ h => finish_ok h
  | .unitVariant _, st, h => by rw [ser]; exact bind_ok h _
  | .newtypeStruct v, st, h => by rw [ser]; exact ser_ok v st h
  | .newtypeVariant _ v, st, h => by rw [ser]; exact ser_ok v st h
  | .seq _, st, h => by rw [ser]; exact Res.post_err
  | .tuple vs, st, h => by
    rw [ser]
    exact (start_ok h _).bind fun _ h => (serAll_ok' vs _ h).bind fun _ h => finish_ok h
  | .tupleStruct vs, st, h => by
    rw [ser]
    exact (start_ok h _).bind fun _ h => (serAll_ok' vs _ h).bind fun _ h => finish_ok h
  | .tupleVariant _ vs, st, h => by
    rw [ser]
    exact (start_ok h _).bind fun _ h => (serAll_ok' vs _ h).bind fun _ h => finish_ok h
  | .map _, st, h => by rw [ser]; exact Res.post_err
  | .struct _, st, h => by rw [ser]; exact Res.post_err
  | .structVariant _ _, st, h => by rw [ser]; exact Res.post_err
theorem serAll_ok' : ∀ (vs : List Val) (st : PathSer), PathOk st.path →
    (serAll vs st).Post fun x => PathOk x.path
  | [], st, h => by rw [serAll]; exact Res.post_ok h
  | v :: vs, st, h => by rw [serAll]; exact (ser_ok v st h).bind fun _ h => serAll_ok' vs _ h
end

end PathSer

theorem serPath_ok [FloatText] (e : EntryPoint) {p : Str} (h : PathOk p) (v : Val) :
    (serPath e p v).Post PathOk :=
  (PathSer.ser_ok v _ h).bind fun _ h => Res.post_ok h

/-! ### Queries -/

/-- A query text. -/
def QueryOk (q : Str) : Prop := ∀ c ∈ q, GoodChar c

theorem FormChar.good {c : Char} (h : FormChar c) : GoodChar c := by
  rcases h with h | h | h | h | h | h | h
  · have hr := alnum_range h
    refine ⟨by omega, by omega, ?_, ?_⟩ <;> exact alnum_ne h (by decide)
  all_goals subst h; exact ⟨by decide, by decide, by decide, by decide⟩

theorem QueryOk.appendPair {q : Str} (h : QueryOk q) (k v : Str) : QueryOk (appendPair q k v) := by
  intro c hc
  simp only [Htrpc.appendPair, List.mem_append, List.mem_singleton] at hc
  rcases hc with ((hc | hc) | rfl) | hc
  · split at hc
    · cases hc
    · rcases List.mem_append.1 hc with hc | hc
      · exact h c hc
      · rw [List.mem_singleton.1 hc]
        exact ⟨by decide, by decide, by decide, by decide⟩
  · exact (mem_formEncode hc).good
  · exact ⟨by decide, by decide, by decide, by decide⟩
  · exact (mem_formEncode hc).good

namespace QuerySer

theorem append_ok {st : QuerySer} (h : QueryOk st.out) (s : Str) : QueryOk (st.append s).out := by
  unfold append
  split
  · exact h.appendPair _ _
  · exact h

theorem enter_ok {st : QuerySer} (h : QueryOk st.out) : st.enter.Post fun x => QueryOk x.out := by
  rw [enter]
  exact Res.post_true.bind fun _ _ => Res.post_ok h

variable [FloatText]

mutual
theorem ser_ok : ∀ (v : Val) (st : QuerySer), QueryOk st.out → (ser v st).Post fun x => QueryOk x.out
  | .bool _, st, h => by rw [ser]; exact Res.post_ok (append_ok h _)
  | .int _ _, st, h => by rw [ser]; exact Res.post_ok (append_ok h _)
  | .f32 _, st, h => by rw [ser]; exact Res.post_ok (append_ok h _)
  | .f64 _, st, h => by rw [ser]; exact Res.post_ok (append_ok h _)
  | .char _, st, h => by rw [ser]; exact Res.post_ok (append_ok h _)
  | .str _, st, h => by rw [ser]; exact Res.post_ok (append_ok h _)
  | .bytes _, st, h => by rw [ser]; exact Res.post_err
  | .none, st, h => by rw [ser]; exact Res.post_true.bind fun _ _ => Res.post_ok h
  | .some v, st, h => by rw [ser]; exact ser_ok v st h
  | .unit, st, h => by rw [ser]; exact Res.post_err
  | .unitStruct _, st, h => by rw [ser]; exact Res.post_err
  | .unitVariant _, st, h => by rw [ser]; exact Res.post_ok (append_ok h _)
  | .newtypeStruct v, st, h => by rw [ser]; exact ser_ok v st h
  | .newtypeVariant _ v, st, h => by rw [ser]; exact ser_ok v st h
  | .seq _, st, h => by rw [ser]; exact Res.post_err
  | .tuple _, st, h => by rw [ser]; exact Res.post_err
  | .tupleStruct _, st, h => by rw [ser]; exact Res.post_err
  | .tupleVariant _ _, st, h => by rw [ser]; exact Res.post_err
  | .map kvs, st, h => by rw [ser]; exact (enter_ok h).bind fun _ h => serMap_ok kvs _ h
  | .struct fs, st, h => by rw [ser]; exact (enter_ok h).bind fun _ h => serFields_ok fs _ h
  | .structVariant _ fs, st, h => by rw [ser]; exact (enter_ok h).bind fun _ h => serFields_ok fs _ h
theorem serMap_ok : ∀ (kvs : List (Val × Val)) (st : QuerySer), QueryOk st.out →
    (serMap kvs st).Post fun x => QueryOk x.out
  | [], st, h => by rw [serMap]; exact Res.post_ok h
  | (k, v) :: kvs, st, h => by
    rw [serMap]
    exact (ser_ok k st h).bind fun _ h => (ser_ok v _ h).bind fun _ h => serMap_ok kvs _ h
theorem serFields_ok : ∀ (fs : List (Str × Val)) (st : QuerySer), QueryOk st.out →
    (serFields fs st).Post fun x => QueryOk x.out
  | [], st, h => by rw [serFields]; exact Res.post_ok h
  | (k, v) :: fs, st, h => by
    rw [serFields]
    exact (ser_ok v { st with key := some k } h).bind fun _ h => serFields_ok fs _ h
end

end QuerySer

/-! ### Requests -/

namespace ReqSer
open Spec

/-- The state of the serializer only has safe text. -/
structure SafeText (st : ReqSer) : Prop where
  path : PathOk st.path
  query : ∀ q, st.query = some q → QueryOk q
  request : ∀ r, st.request = some r → SafeTarget r.target

theorem safe_relative {p : Str} (hp : PathOk p) {q : Option Str} (hq : ∀ x, q = some x → QueryOk x) :
    SafeTarget (relativeUrl p q) := by
  obtain ⟨r, rfl, hr⟩ := hp
  cases q with
  | none => exact .path hr
  | some q => exact .query hr (hq q rfl)

theorem safe_new : SafeText .new := by
  refine ⟨⟨[], rfl, by simp⟩, ?_, ?_⟩ <;> intro _ h <;> cases h

variable [FloatText]

theorem takeRequest_ok (e : EntryPoint) {st : ReqSer} (h : SafeText st) :
    (takeRequest e st).Post fun x => SafeTarget x.1.target ∧ SafeText x.2 := by
  unfold takeRequest
  split
  · rename_i r hr
    refine Res.post_ok ⟨h.request r hr, h.path, h.query, ?_⟩
    intro _ h; cases h
  · rename_i hr
    split
    · exact Res.post_panic
    · split
      · refine Res.post_ok ⟨safe_relative h.path h.query, h.path, h.query, ?_⟩
        intro _ hx; rw [hr] at hx; cases hx
      · split
        · rename_i p hp
          have := serPath_ok e h.path _ p hp
          refine Res.post_ok ⟨safe_relative this h.query, this, h.query, ?_⟩
          intro _ hx; simp only [hr] at hx; cases hx
        · exact Res.post_panic

theorem serField_ok (e : EntryPoint) (k : Str) (v : Val) {st : ReqSer} (h : SafeText st) :
    (serField e k v st).Post SafeText := by
  unfold serField
  split
  · refine Res.post_true.bind fun _ _ => (serPath_ok e h.path v).bind fun p hp => ?_
    exact Res.post_ok ⟨hp, h.query, h.request⟩
  · split
    · refine Res.post_true.bind fun _ _ => ?_
      have rest : ∀ st : ReqSer, SafeText st → Res.Post (do
          let q ← QuerySer.ser v (QuerySer.new (st.query.getD []))
          let st := { st with query := some q.out }
          Res.ok { st with conn := false, request := some ⟨relativeUrl st.path st.query, []⟩ })
          SafeText := by
        intro st h
        have hq : QueryOk (st.query.getD []) := by
          cases hs : st.query with
          | none => intro c hc; cases hc
          | some q => exact h.query q hs
        refine (QuerySer.ser_ok v (QuerySer.new _) hq).bind fun q hq => ?_
        have hq' : ∀ x, some q.out = some x → QueryOk x := fun x hx => by cases hx; exact hq
        refine Res.post_ok ⟨h.path, hq', ?_⟩
        intro r hr
        cases hr
        exact safe_relative h.path hq'
      dsimp only
      split
      · exact (Res.post_ok h).bind fun st h => rest st h
      · refine (serPath_ok e h.path v).bind fun p hp => ?_
        exact (Res.post_ok (a := { st with path := p, pathInit := true }) (P := SafeText)
          ⟨hp, h.query, h.request⟩).bind fun st h => rest st h
    · split
      · refine (takeRequest_ok e h).bind fun x hx => Res.post_true.bind fun hs _ => ?_
        refine Res.post_ok ⟨hx.2.path, hx.2.query, ?_⟩
        intro r hr
        cases hr
        exact hx.1
      · exact Res.post_err

theorem serFields_ok (e : EntryPoint) : ∀ (fs : List (Str × Val)) (st : ReqSer), SafeText st →
    (serFields e fs st).Post SafeText
  | [], st, h => by rw [serFields]; exact Res.post_ok h
  | (k, v) :: fs, st, h => by
    rw [serFields]
    exact (serField_ok e k v h).bind fun _ h => serFields_ok e fs _ h

theorem serVariantFields_ok : ∀ (fs : List (Str × Val)) (st : ReqSer), SafeText st →
    (serVariantFields fs st).Post SafeText
  | [], st, h => by rw [serVariantFields]; exact Res.post_ok h
  | (k, v) :: fs, st, h => by
    rw [serVariantFields]
    refine Res.Post.bind (P := SafeText) ?_ fun _ h => serVariantFields_ok fs _ h
    unfold serVariantField
    split
    · split
      · exact Res.post_panic
      · rename_i r hr
        refine Res.post_true.bind fun hs _ => Res.post_ok ⟨h.path, h.query, ?_⟩
        intro r' hr'
        cases hr'
        exact h.request r hr
    · exact Res.post_err

theorem ser_ok (e : EntryPoint) : ∀ (v : Val) (st : ReqSer), SafeText st → (ser e v st).Post SafeText
  | .newtypeStruct v, st, h => by rw [ser]; exact ser_ok e v st h
  | .newtypeVariant _ v, st, h => by rw [ser]; exact ser_ok e v st h
  | .struct fs, st, h => by rw [ser]; exact serFields_ok e fs st h
  | .structVariant _ fs, st, h => by rw [ser]; exact serVariantFields_ok fs st h
  | .bool _, st, h => by rw [ser]; exacts [Res.post_err, by simp, by simp, by simp, by simp]
  | .int _ _, st, h => by rw [ser]; exacts [Res.post_err, by simp, by simp, by simp, by simp]
  | .f32 _, st, h => by rw [ser]; exacts [Res.post_err, by simp, by simp, by simp, by simp]
  | .f64 _, st, h => by rw [ser]; exacts [Res.post_err, by simp, by simp, by simp, by simp]
  | .char _, st, h => by rw [ser]; exacts [Res.post_err, by simp, by simp, by simp, by simp]
  | .str _, st, h => by rw [ser]; exacts [Res.post_err, by simp, by simp, by simp, by simp]
  | .bytes _, st, h => by rw [ser]; exacts [Res.post_err, by simp, by simp, by simp, by simp]
  | .none, st, h => by rw [ser]; exacts [Res.post_err, by simp, by simp, by simp, by simp]
  | .some _, st, h => by rw [ser]; exacts [Res.post_err, by simp, by simp, by simp, by simp]
  | .unit, st, h => by rw [ser]; exacts [Res.post_err, by simp, by simp, by simp, by simp]
  | .unitStruct _, st, h => by rw [ser]; exacts [Res.post_err, by simp, by simp, by simp, by simp]
  | .unitVariant _, st, h => by rw [ser]; exacts [Res.post_err, by simp, by simp, by simp, by simp]
  | .seq _, st, h => by rw [ser]; exacts [Res.post_err, by simp, by simp, by simp, by simp]
  | .tuple _, st, h => by rw [ser]; exacts [Res.post_err, by simp, by simp, by simp, by simp]
  | .tupleStruct _, st, h => by rw [ser]; exacts [Res.post_err, by simp, by simp, by simp, by simp]
  | .tupleVariant _ _, st, h => by rw [ser]; exacts [Res.post_err, by simp, by simp, by simp, by simp]
  | .map _, st, h => by rw [ser]; exacts [Res.post_err, by simp, by simp, by simp, by simp]

end ReqSer

open Spec in
theorem serRequest_target [FloatText] {m : Method} {e : EntryPoint} {v : Val} {body : Bytes}
    {r : Request} (h : serRequest m e v body = .ok r) : SafeTarget r.target := by
  rw [serRequest] at h
  obtain ⟨st, h1, h2⟩ := Res.bind_eq_ok.1 h
  obtain ⟨b, h3, h4⟩ := Res.bind_eq_ok.1 h2
  rw [ReqSer.finish] at h3
  obtain ⟨x, h5, h6⟩ := Res.bind_eq_ok.1 h3
  have hs := ReqSer.ser_ok e v _ ReqSer.safe_new st h1
  have := (ReqSer.takeRequest_ok e hs x h5).1
  cases h6
  cases h4
  exact this

end Htrpc
