/-
C128: calls that are made one after another are like calls of a local object.
-/
import Verif.Spec.Local
import Verif.Props.RealTimeExamples

set_option linter.unusedSectionVars false

namespace Htrpc
open Spec Sys Http

section
variable [LawfulFloatText] [UrlText] [JsonText] [MethodNames] {w : World} {types : Nat → List (Str × Ty)}

theorem made_lt {n i j : Nat} (h : w.Made n j) (hij : i ≤ j) : w.Made n i := Nat.lt_of_le_of_lt hij h

theorem stateAfter_snoc {σ X Y : Type} (apply : σ → X → σ × Y) (s : σ) (xs : List X) (x : X) :
    World.stateAfter apply s (xs ++ [x]) = (apply (World.stateAfter apply s xs) x).1 := by
  simp [World.stateAfter]

theorem range_filterMap {X : Type} (ops : Nat → Option X) {i j : Nat} (hji : j ≤ i)
    (h : ∀ k, j ≤ k → k < i → ops k = none) :
    (List.range i).filterMap ops = (List.range j).filterMap ops := by
  obtain ⟨d, rfl⟩ := Nat.exists_eq_add_of_le hji
  induction d with
  | zero => rfl
  | succ d ih =>
    rw [← Nat.add_assoc, List.range_succ, List.filterMap_append,
      ih (by omega) fun k h1 h2 => h k h1 (by omega)]
    simp [h (j + d) (by omega) (by omega)]

/-- At each time the object is in the state after the operations of the first calls, namely those that
have acted. -/
theorem state_at {σ : Type} {apply : σ → Service × Val × Val → σ × (Val × Bytes)}
    {acts : Nat → Option (Unit × Nat)} {st : Nat → σ}
    (ha : World.Atomic (fun _ : Unit => w) apply acts st) (hw : w.Honest) (he : w.Expressible types)
    (hs : w.OneByOne) (ops : Nat → Option (Service × Val × Val))
    (hops : ∀ i x, ops i = some x ↔ ∃ m, w.Invoked m i x) (t : Nat) :
    ∃ j, (∀ i, (∃ t' < t, acts t' = some ((), i)) → i < j) ∧
      (∀ i x, i < j → ops i = some x → ∃ t' < t, acts t' = some ((), i)) ∧
      st t = World.stateAfter apply (st 0) ((List.range j).filterMap ops) := by
  induction t with
  | zero => exact ⟨0, fun i ⟨t', h, _⟩ => absurd h (Nat.not_lt_zero _), fun i x h => absurd h (Nat.not_lt_zero _), rfl⟩
  | succ t ih =>
    obtain ⟨j, h1, h2, h3⟩ := ih
    cases hact : acts t with
    | none =>
      refine ⟨j, fun i ⟨t', ht, hi⟩ => ?_, fun i x hi hx => ?_, by rw [ha.idle t hact, h3]⟩
      · rcases Nat.lt_succ_iff_lt_or_eq.1 ht with ht | rfl
        · exact h1 i ⟨t', ht, hi⟩
        · rw [hact] at hi
          cases hi
      · obtain ⟨t', ht, hi⟩ := h2 i x hi hx
        exact ⟨t', by omega, hi⟩
    | some o =>
      obtain ⟨⟨⟩, i⟩ := o
      obtain ⟨x, hx, hst⟩ := ha.effect t () i hact
      have hxi : ops i = some x := (hops i x).2 ⟨_, hx⟩
      have hji : j ≤ i := by
        by_contra hc
        obtain ⟨t', ht, hi⟩ := h2 i x (by omega) hxi
        have := ha.once _ _ _ hi hact
        omega
      -- the calls before this one have completed
      have hmade : w.Made t i := by
        obtain ⟨u, hu, hm⟩ := C124_moment _ i x hx
        exact made_le (Nat.lt_succ_iff.1 ((hm _ _).1 hx).1) hu
      have before : ∀ k x', k < i → ops k = some x' → ∃ t' < t, acts t' = some ((), k) := by
        intro k x' hk hx'
        obtain ⟨v, b, y, hy, hd⟩ := hs t k (made_lt hmade hk)
        obtain ⟨m, hm⟩ := (hops k x').1 hx'
        obtain ⟨t', h1', -, h2', -⟩ := C124_linearizable (fun _ : Unit => w) apply acts st ha (fun _ => hw)
          (fun _ => he) () t m k y v b x' hy hd hm
        exact ⟨t', h2', (h1' t').2 rfl⟩
      have none : ∀ k, j ≤ k → k < i → ops k = none := by
        intro k hjk hki
        cases hk : ops k with
        | none => rfl
        | some x' =>
          have := h1 k (before k x' hki hk)
          omega
      refine ⟨i + 1, fun k ⟨t', ht, hk⟩ => ?_, fun k x' hk hx' => ?_, ?_⟩
      · rcases Nat.lt_succ_iff_lt_or_eq.1 ht with ht | rfl
        · have := h1 k ⟨t', ht, hk⟩
          omega
        · rw [hact] at hk
          cases hk
          omega
      · rcases Nat.lt_succ_iff_lt_or_eq.1 hk with hk | rfl
        · obtain ⟨t', ht, h⟩ := before k x' hk hx'
          exact ⟨t', by omega, h⟩
        · exact ⟨t, by omega, hact⟩
      · rw [hst, h3, List.range_succ, List.filterMap_append, range_filterMap ops hji none]
        have : List.filterMap ops [i] = [x] := by simp [hxi]
        rw [this, stateAfter_snoc]

/-- **C128.** A program makes its calls one after another, and the handlers are an atomic object that nobody
else uses. Then each call that completes, for which a handler is called, has the result that the operation
has on a local object, after the operations of the calls before it in their order. -/
theorem C128_local {σ : Type} (apply : σ → Service × Val × Val → σ × (Val × Bytes))
    (acts : Nat → Option (Unit × Nat)) (st : Nat → σ)
    (ha : World.Atomic (fun _ : Unit => w) apply acts st) (hw : w.Honest) (he : w.Expressible types)
    (hs : w.OneByOne) :
    ∃ ops : Nat → Option (Service × Val × Val), (∀ i x, ops i = some x ↔ ∃ m, w.Invoked m i x) ∧
      ∀ n i y v b x, (w.sys n).calls[i]? = some y → y.st = .done v b → ops i = some x →
        b = (if y.proc.method = .head then [] else
          (apply (World.stateAfter apply (st 0) ((List.range i).filterMap ops)) x).2.2) ∧
        ∀ ht code, PlainResponse
            (apply (World.stateAfter apply (st 0) ((List.range i).filterMap ops)) x).2.1 y.proc.resTy ht code →
          v = (apply (World.stateAfter apply (st 0) ((List.range i).filterMap ops)) x).2.1 := by
  classical
  refine ⟨fun i => if h : ∃ x m, w.Invoked m i x then some h.choose else none, ?_⟩
  have hops : ∀ i x, (fun i => if h : ∃ x m, w.Invoked m i x then some h.choose else none) i = some x ↔
      ∃ m, w.Invoked m i x := by
    intro i x
    by_cases h : ∃ x m, w.Invoked m i x
    · simp only [dif_pos h, Option.some.injEq]
      obtain ⟨m, hm⟩ := h.choose_spec
      constructor
      · rintro rfl
        exact ⟨m, hm⟩
      · rintro ⟨m', hm'⟩
        exact invoked_once hm hm'
    · simp only [dif_neg h]
      constructor
      · intro h'
        cases h'
      · intro h'
        exact absurd ⟨x, h'⟩ h
  refine ⟨hops, ?_⟩
  generalize (fun i => if h : ∃ x m, w.Invoked m i x then some h.choose else none) = ops at hops
  intro n i y v b x hy hst hx
  obtain ⟨m, hm⟩ := (hops i x).1 hx
  obtain ⟨t, h1, h2, -, -, h3, h4⟩ := C124_linearizable (fun _ : Unit => w) apply acts st ha (fun _ => hw)
    (fun _ => he) () n m i y v b x hy hst hm
  obtain ⟨j, g1, g2, g3⟩ := state_at ha hw he hs ops hops t
  have hji : j ≤ i := by
    by_contra hc
    obtain ⟨t', ht, hi⟩ := g2 i x (by omega) hx
    rw [(h1 t').1 hi] at ht
    omega
  have hnone : ∀ k, j ≤ k → k < i → ops k = none := by
    intro k hjk hki
    cases hk : ops k with
    | none => rfl
    | some x' =>
      obtain ⟨v', b', y', hy', hd⟩ := hs t k (made_lt h2 hki)
      obtain ⟨m', hm'⟩ := (hops k x').1 hk
      obtain ⟨t', h1', -, h2', -⟩ := C124_linearizable (fun _ : Unit => w) apply acts st ha (fun _ => hw)
        (fun _ => he) () t m' k y' v' b' x' hy' hd hm'
      have := g1 k ⟨t', h2', (h1' t').2 rfl⟩
      omega
  rw [range_filterMap ops hji hnone, ← g3]
  exact ⟨h3, h4⟩

/-- What has acted before a time, in this order. -/
theorem trace_at {σ : Type} {apply : σ → Service × Val × Val → σ × (Val × Bytes)}
    {acts : Nat → Option (Unit × Nat)} {st : Nat → σ}
    (ha : World.Atomic (fun _ : Unit => w) apply acts st) (t : Nat) :
    ∃ l : List (Nat × Service × Val × Val),
      (∀ e ∈ l, ∃ u < t, acts u = some ((), e.1) ∧ w.Invoked (u + 1) e.1 e.2) ∧
      (∀ u < t, ∀ i, acts u = some ((), i) → ∃ x, (i, x) ∈ l) ∧
      l.Pairwise (fun e e' => ∃ u u', u < u' ∧ acts u = some ((), e.1) ∧ acts u' = some ((), e'.1)) ∧
      st t = World.stateAfter apply (st 0) (l.map Prod.snd) := by
  induction t with
  | zero => exact ⟨[], nofun, fun u h => absurd h (Nat.not_lt_zero _), .nil, rfl⟩
  | succ t ih =>
    obtain ⟨l, h1, h2, h3, h4⟩ := ih
    cases hact : acts t with
    | none =>
      refine ⟨l, fun e he => ?_, fun u hu i hi => ?_, h3, by rw [ha.idle t hact, h4]⟩
      · obtain ⟨u, hu, h⟩ := h1 e he
        exact ⟨u, by omega, h⟩
      · rcases Nat.lt_succ_iff_lt_or_eq.1 hu with hu | rfl
        · exact h2 u hu i hi
        · rw [hact] at hi
          cases hi
    | some o =>
      obtain ⟨⟨⟩, i⟩ := o
      obtain ⟨x, hx, hst⟩ := ha.effect t () i hact
      refine ⟨l ++ [(i, x)], fun e he => ?_, fun u hu k hk => ?_, ?_, ?_⟩
      · rcases List.mem_append.1 he with he | he
        · obtain ⟨u, hu, h⟩ := h1 e he
          exact ⟨u, by omega, h⟩
        · rw [List.mem_singleton.1 he]
          exact ⟨t, Nat.lt_succ_self t, hact, hx⟩
      · rcases Nat.lt_succ_iff_lt_or_eq.1 hu with hu | rfl
        · obtain ⟨x', hx'⟩ := h2 u hu k hk
          exact ⟨x', List.mem_append_left _ hx'⟩
        · rw [hact] at hk
          cases hk
          exact ⟨x, by simp⟩
      · refine List.pairwise_append.2 ⟨h3, List.pairwise_singleton _ _, fun e he e' he' => ?_⟩
        rw [List.mem_singleton.1 he']
        obtain ⟨u, hu, h, -⟩ := h1 e he
        exact ⟨u, t, hu, h, hact⟩
      · rw [hst, h4, List.map_append]
        exact (stateAfter_snoc apply _ _ x).symm

/-- **C128.** Calls may fail, too, or be given up; then nobody knows whether and when they take effect. Each
call that completes, for which a handler is called, has the result of its operation after the operations of
all calls before it that have completed, in their order and each once; and of those that did not complete
some have taken effect, each once at most, not before any call that had completed before it was made. -/
theorem C128_failures {σ : Type} (apply : σ → Service × Val × Val → σ × (Val × Bytes))
    (acts : Nat → Option (Unit × Nat)) (st : Nat → σ)
    (ha : World.Atomic (fun _ : Unit => w) apply acts st) (hw : w.Honest) (he : w.Expressible types)
    (hs : w.OneByOneOrFailed) (n m i : Nat) (y : PCall) (v : Val) (b : Bytes) (x : Service × Val × Val)
    (hy : (w.sys n).calls[i]? = some y) (hst : y.st = .done v b) (hx : w.Invoked m i x) :
    ∃ l : List (Nat × Service × Val × Val), (l.map Prod.fst).Nodup ∧
      (∀ e ∈ l, e.1 < i ∧ ∃ m, w.Invoked m e.1 e.2) ∧
      (∀ k < i, ∀ n' v' b' m' x', w.Completed n' k v' b' → w.Invoked m' k x' → (k, x') ∈ l) ∧
      l.Pairwise (fun e e' => e'.1 < e.1 → ∀ n' v' b', ¬ w.Completed n' e'.1 v' b') ∧
      b = (if y.proc.method = .head then [] else
        (apply (World.stateAfter apply (st 0) (l.map Prod.snd)) x).2.2) ∧
      ∀ ht code, PlainResponse (apply (World.stateAfter apply (st 0) (l.map Prod.snd)) x).2.1
          y.proc.resTy ht code →
        v = (apply (World.stateAfter apply (st 0) (l.map Prod.snd)) x).2.1 := by
  obtain ⟨t, h1, h2, htn, -, h3, h4⟩ := C124_linearizable (fun _ : Unit => w) apply acts st ha (fun _ => hw)
    (fun _ => he) () n m i y v b x hy hst hx
  -- a call that completes and is in progress no more when another is made has acted before that
  have acted : ∀ u k j n' v' b' m' x', k < j → w.Made u j → w.Completed n' k v' b' → w.Invoked m' k x' →
      ∃ u' < u, acts u' = some ((), k) := by
    intro u k j n' v' b' m' x' hkj hm hc hi
    rcases hs u k (made_lt hm hkj) with ⟨v'', b'', y', hy', hd⟩ | hnever
    · obtain ⟨u', g1, -, g2, -⟩ := C124_linearizable (fun _ : Unit => w) apply acts st ha (fun _ => hw)
        (fun _ => he) () u m' k y' v'' b'' x' hy' hd hi
      exact ⟨u', g2, (g1 u').2 rfl⟩
    · exact absurd hc (hnever n' v' b')
  have made : ∀ u k x', w.Invoked (u + 1) k x' → w.Made u k := by
    intro u k x' h
    obtain ⟨u', hu', hm⟩ := C124_moment _ k x' h
    exact made_le (Nat.lt_succ_iff.1 ((hm _ _).1 h).1) hu'
  obtain ⟨l, g1, g2, g3, g4⟩ := trace_at ha t
  rw [g4] at h3 h4
  refine ⟨l, ?_, fun e hel => ?_, fun k hk n' v' b' m' x' hc hi => ?_, ?_, h3, h4⟩
  · rw [List.Nodup, List.pairwise_map]
    refine g3.imp ?_
    rintro e e' ⟨u, u', hu, hu1, hu2⟩ heq
    rw [heq] at hu1
    have := ha.once _ _ _ hu1 hu2
    omega
  · obtain ⟨u, hu, hact, hinv⟩ := g1 e hel
    refine ⟨?_, _, hinv⟩
    rcases Nat.lt_trichotomy e.1 i with h | h | h
    · exact h
    · rw [h] at hact
      have := (h1 u).1 hact
      omega
    · obtain ⟨u', hu', hact'⟩ := acted u i e.1 n v b m x h (made u _ _ hinv) ⟨y, hy, hst⟩ hx
      have := (h1 u').1 hact'
      omega
  · obtain ⟨u, hu, hact⟩ := acted t k i n' v' b' m' x' hk h2 hc hi
    obtain ⟨x'', hx''⟩ := g2 u hu k hact
    obtain ⟨u', -, -, hinv⟩ := g1 _ hx''
    have : x' = x'' := invoked_once hi hinv
    rw [this]
    exact hx''
  · refine (List.Pairwise.and_mem.1 g3).imp ?_
    rintro e e' ⟨hel, hel', u, u', hu, hu1, hu2⟩ hlt n' v' b' hc
    obtain ⟨a, -, hact, hinv⟩ := g1 e hel
    obtain ⟨a', -, hact', hinv'⟩ := g1 e' hel'
    have e1 := ha.once _ _ _ hact hu1
    have e2 := ha.once _ _ _ hact' hu2
    subst e1 e2
    obtain ⟨d, hd, hd'⟩ := acted a e'.1 e.1 n' v' b' _ _ hlt (made a _ _ hinv) hc hinv'
    have := ha.once _ _ _ hd' hact'
    omega

/-- **C128.** And the operation is that which the caller asked for. -/
theorem C128_asked (hw : w.Honest) (he : w.Expressible types) (n m i : Nat) (y : PCall) (v : Val) (b : Bytes)
    (x : Service × Val × Val) (hy : (w.sys n).calls[i]? = some y) (hst : y.st = .done v b)
    (hx : w.Invoked m i x) :
    ∃ fs body c, (asked (upTo w.clients n))[i]? = some (y.proc, y.addr, .struct fs, body) ∧
      x.1 ∈ (w.cfg c).services ∧ x.1.method = y.proc.method ∧ w.read c x.1 x.2.1 body x.2.2 ∧
      (x.1.entry = y.proc.entry → x.1.reqTy = .struct (types i) →
        ∃ ws, x.2.1 = .struct ws ∧ FieldsArrive PartArrives fs ws) := by
  let := httpWire
  obtain ⟨fs, b0, c, k, r, hd, l, a, g1, g2, g3, -, g5, -⟩ :=
    C79_own_answer w.size (upTo w.clients n) w.cfg (fun c => upTo (w.servers c) n) w.phrase types w.read
      (he n) i y v b (hw.linked n) (hw.bodies n) (hw.safe n) hy hst
  obtain ⟨c', k', r', hd', l', h1, h2, h3⟩ := (C124_within hw he n m i y v b x hy hst hx).1
  obtain ⟨rfl, rfl, -⟩ := C90_one_request w.size (upTo w.clients n) c c' k k' i r r' g2 h1
  have e : (hd, l) = (hd', l') := Option.some.inj (g3.symm.trans h2)
  cases e
  obtain ⟨q1, q2, q3, q4⟩ := g5 x.1 x.2.1 x.2.2 h3
  exact ⟨fs, b0, c, g1, q1, q2, q3, q4⟩

end

namespace RealTimeExamples
open ToyJson ToyMethods WorldExamples SystemExamples HttpExamples

attribute [local instance] toyFloat toyUrl toyJson toyMethods

/-- `C128_local`: the first call of an object that counts. -/
example : ∃ ops : Nat → Option (Service × Val × Val),
    ops 0 = some (exService, exVal "hello world".toList, exVal "hello world".toList) ∧
    ∀ n y v b, (exWorld.sys n).calls[0]? = some y → y.st = .done v b →
      b = if y.proc.method = .head then [] else [4, 5] := by
  obtain ⟨acts, st, h⟩ := ex_atomic
  obtain ⟨ops, h1, h2⟩ := C128_local _ acts st h ex_honest ex_expressible fun n j hj =>
    absurd (ex_only hj) (Nat.succ_ne_zero j)
  have h0 := (h1 0 _).2 ⟨12, ex_invoked.1⟩
  exact ⟨ops, h0, fun n y v b hy hst => (h2 n 0 y v b _ hy hst h0).1⟩

/-- `C128_failures`: a call that completes, with nothing before it. -/
example : ∃ y v b, (exWorld.sys 15).calls[0]? = some y ∧ y.st = .done v b ∧
    b = if y.proc.method = .head then [] else [4, 5] := by
  obtain ⟨⟨y, hy, hst⟩, -⟩ := ex_completed
  obtain ⟨acts, st, h⟩ := ex_atomic
  obtain ⟨l, -, -, -, -, hb, -⟩ := C128_failures _ acts st h ex_honest ex_expressible
    (fun n j hj => absurd (ex_only hj) (Nat.succ_ne_zero j)) 15 12 0 y _ _ _ hy hst ex_invoked.1
  exact ⟨y, _, _, hy, hst, hb⟩

/-- The world in which a call was given up and takes effect after the next one (`C124_late`). -/
example : lateWorld.OneByOneOrFailed := by
  intro n j hj
  have hj := made_le (Nat.le_max_left n 9) hj
  have hlen : (lateWorld.sys (max n 9)).calls.length = 2 := by
    obtain ⟨q, es, inner, h1⟩ := late_client
    rw [World.sys, show lateWorld.clients = forever lateClient (.handle 0) from rfl, upTo_forever,
      List.take_of_length_le (by exact Nat.le_max_right n 9), sys_run_append,
      show lateWorld.size = 3 from rfl, h1, (handle_run _ _ rfl).1]
    rfl
  rw [World.Made, hlen] at hj
  have : j = 0 := by omega
  subst this
  refine .inr fun m v b ⟨y, hy, hst⟩ => ?_
  obtain ⟨z, hz, hzst, -⟩ := late_dropped
  obtain ⟨y', h1, h2⟩ := (World.finished_stays hy (by rw [hst]; trivial)).2 (max m 5) (Nat.le_max_left _ _)
  obtain ⟨z', h3, h4⟩ := (World.finished_stays hz (by rw [hzst]; trivial)).2 (max m 5) (Nat.le_max_right _ _)
  rw [h1] at h3
  cases h3
  rw [h2, hst, hzst] at h4
  cases h4

/-- `C128_asked`: the handler is called with what the caller has given. -/
example : ∃ y fs body, (exWorld.sys 15).calls[0]? = some y ∧
    (asked (upTo exWorld.clients 15))[0]? = some (y.proc, y.addr, .struct fs, body) ∧
    exService.method = y.proc.method := by
  obtain ⟨⟨y, hy, hst⟩, -⟩ := ex_completed
  obtain ⟨fs, body, c, h, -, hm, -⟩ := C128_asked ex_honest ex_expressible 15 12 0 y _ _ _ hy hst ex_invoked.1
  exact ⟨y, fs, body, hy, h, hm⟩

end RealTimeExamples

end Htrpc
