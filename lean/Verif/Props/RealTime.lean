/-
C124: handlers are called while the calls are in progress, so in the order of the caller.
-/
import Verif.Spec.RealTime
import Verif.Props.Once
import Verif.Props.World

set_option linter.unusedSectionVars false

namespace Htrpc
open Spec Http

/-! ### Blocks of a log that grows -/

theorem blocks_grow {a b : List ConnEffect} (h : a <+: b) {k : Nat} {hd : ReqHead} {l : List ConnEffect}
    (hk : (blocks a)[k]? = some (hd, l)) : ∃ l', (blocks b)[k]? = some (hd, l') ∧ l <+: l' := by
  obtain ⟨e, rfl⟩ := h
  induction a generalizing k with
  | nil => cases hk
  | cons x a ih =>
    cases x with
    | read h0 =>
      cases k with
      | zero =>
        cases hk
        refine ⟨_, rfl, ?_⟩
        rw [show a.append e = a ++ e from rfl, List.takeWhile_append]
        split
        · rename_i hl
          rw [(List.takeWhile_prefix _).eq_of_length hl]
          exact List.prefix_append _ _
        · exact List.prefix_rfl
      | succ k => exact ih hk
    | _ => exact ih hk

section
variable [LawfulFloatText] [UrlText] [JsonText]

/-- After the answer to a request no handler is called or returns for it. -/
theorem block_settled [Wire] {cfg : ServerCfg} {es es' : List ConnEvent} {k : Nat} {h : ReqHead}
    {l l' : List ConnEffect} (hl : (blocks (connLog cfg es))[k]? = some (h, l))
    (hl' : (blocks (connLog cfg es'))[k]? = some (h, l')) (hp : l <+: l') (ha : answers l ≠ []) :
    calls l' = calls l ∧ returned l' = returned l := by
  obtain ⟨e, rfl⟩ := hp
  have key : ∀ {m}, (Exchange cfg h (.read h :: m) ∨ Started cfg h (.read h :: m)) →
      (∃ b a t, m = .drained b :: .answer a :: t ∧ calls t = [] ∧ returned t = []) ∨
      (∃ s v u r b a t, m = .invoked s v u :: .returned r b :: .answer a :: t ∧ calls t = [] ∧
        returned t = []) ∨ answers m = [] := by
    intro m hm
    generalize hx : ConnEffect.read h :: m = m0 at hm
    rcases hm with hm | hm <;> cases hm <;> cases hx
    · exact .inl ⟨_, _, _, rfl, rfl, rfl⟩
    · exact .inr (.inl ⟨_, _, _, _, _, _, _, rfl, rfl, rfl⟩)
    · exact .inr (.inr rfl)
    · exact .inl ⟨_, _, _, rfl, rfl, rfl⟩
    · exact .inr (.inr rfl)
    · exact .inr (.inr rfl)
    · exact .inr (.inl ⟨_, _, _, _, _, _, _, rfl, rfl, rfl⟩)
  have h1 := key (((transcript cfg es).blocks k h l hl).imp id And.left)
  have h2 := key (((transcript cfg es').blocks k h _ hl').imp id And.left)
  have hae : answers (l ++ e) ≠ [] := by
    rw [answers_append]
    exact fun h => ha (List.append_eq_nil_iff.1 h).1
  rcases h1 with ⟨b, a, t, rfl, c1, c2⟩ | ⟨s, v, u, r, b, a, t, rfl, c1, c2⟩ | h1
  · rcases h2 with ⟨b', a', t', h2, d1, d2⟩ | ⟨s, v, u, r, b', a', t', h2, d1, d2⟩ | h2
    · simp only [List.cons_append, List.cons.injEq] at h2
      obtain ⟨-, -, rfl⟩ := h2
      simp only [List.cons_append]
      constructor
      · rw [show calls (.drained b :: .answer a :: (t ++ e)) = calls (t ++ e) from rfl, d1]
        exact c1.symm
      · rw [show returned (.drained b :: .answer a :: (t ++ e)) = returned (t ++ e) from rfl, d2]
        exact c2.symm
    · cases h2
    · exact absurd h2 hae
  · rcases h2 with ⟨b', a', t', h2, d1, d2⟩ | ⟨s', v', u', r', b', a', t', h2, d1, d2⟩ | h2
    · cases h2
    · simp only [List.cons_append, List.cons.injEq] at h2
      obtain ⟨-, -, -, rfl⟩ := h2
      simp only [List.cons_append]
      constructor
      · rw [show calls (.invoked s v u :: .returned r b :: .answer a :: (t ++ e)) =
          (s, v, u) :: calls (t ++ e) from rfl, d1]
        exact congrArg _ c1.symm
      · rw [show returned (.invoked s v u :: .returned r b :: .answer a :: (t ++ e)) =
          (r, b) :: returned (t ++ e) from rfl, d2]
        exact congrArg _ c2.symm
    · exact absurd h2 hae
  · exact absurd h1 ha

/-- Within a block, what is returned comes from a handler that was called. -/
theorem block_returned [Wire] {cfg : ServerCfg} {es : List ConnEvent} {k : Nat} {h : ReqHead}
    {l : List ConnEffect} (hl : (blocks (connLog cfg es))[k]? = some (h, l)) :
    (returned l).length ≤ 1 ∧ ∀ y ∈ returned l, ∃ x, x ∈ calls l := by
  have hx := ((transcript cfg es).blocks k h l hl).imp id And.left
  generalize hm : ConnEffect.read h :: l = m at hx
  rcases hx with hx | hx <;> cases hx <;> cases hm <;> simp [returned, calls]

/-- An answered block has a call only together with what was returned. -/
theorem block_both [Wire] {cfg : ServerCfg} {es : List ConnEvent} {k : Nat} {h : ReqHead}
    {l : List ConnEffect} (hl : (blocks (connLog cfg es))[k]? = some (h, l)) (ha : answers l ≠ [])
    {x : Service × Val × Val} (hx : x ∈ calls l) : ∃ y, y ∈ returned l := by
  have hb := ((transcript cfg es).blocks k h l hl).imp id And.left
  generalize hm : ConnEffect.read h :: l = m at hb
  rcases hb with hb | hb <;> cases hb <;> cases hm <;> simp [returned, calls, answers] at hx ha ⊢

end

section
variable [LawfulFloatText] [UrlText] [JsonText] [MethodNames] {w : World}
  {types : Nat → List (Str × Ty)}

theorem requestsOn_le {a b : List WireStep} (h : a <+: b) {k : Nat} {x : Nat × Request}
    (hk : (requestsOn a)[k]? = some x) : (requestsOn b)[k]? = some x := by
  obtain ⟨e, rfl⟩ := h
  rw [requestsOn, List.filterMap_append, List.getElem?_append_left]
  · exact hk
  · exact (List.getElem?_eq_some_iff.1 hk).1

/-- What was read before is there later, at the same place. -/
theorem place_le {n m : Nat} (hnm : n ≤ m) {c : Conn} {k i : Nat} {r : Request} {h : ReqHead}
    {l : List ConnEffect} (h1 : (requestsOn (w.wire n c))[k]? = some (i, r))
    (h2 : (blocks (w.log n c))[k]? = some (h, l)) :
    (requestsOn (w.wire m c))[k]? = some (i, r) ∧
      ∃ l', (blocks (w.log m c))[k]? = some (h, l') ∧ l <+: l' :=
  ⟨requestsOn_le (World.wire_le hnm c) h1, blocks_grow (World.log_le hnm c) h2⟩

theorem invoked_le {n m i : Nat} {x : Service × Val × Val} (hnm : n ≤ m) (h : w.Invoked n i x) :
    w.Invoked m i x := by
  obtain ⟨c, k, r, h, l, h1, h2, h3⟩ := h
  obtain ⟨g1, l', g2, e, rfl⟩ := place_le hnm h1 h2
  refine ⟨c, k, r, h, _, g1, g2, ?_⟩
  rw [calls, List.filterMap_append]
  exact List.mem_append_left _ h3

theorem returned_le {n m i : Nat} {y : Val × Bytes} (hnm : n ≤ m) (h : w.Returned n i y) :
    w.Returned m i y := by
  obtain ⟨c, k, r, h, l, h1, h2, h3⟩ := h
  obtain ⟨g1, l', g2, e, rfl⟩ := place_le hnm h1 h2
  refine ⟨c, k, r, h, _, g1, g2, ?_⟩
  rw [Spec.returned, List.filterMap_append]
  exact List.mem_append_left _ h3

theorem invoked_once {n m i : Nat} {x x' : Service × Val × Val} (h : w.Invoked n i x)
    (h' : w.Invoked m i x') : x = x' := by
  let := httpWire
  obtain ⟨c, k, r, hd, l, h1, h2, h3⟩ := invoked_le (Nat.le_max_left n m) h
  obtain ⟨c', k', r', hd', l', h1', h2', h3'⟩ := invoked_le (Nat.le_max_right n m) h'
  obtain ⟨rfl, rfl, -⟩ := C90_one_request w.size (upTo w.clients (max n m)) c c' k k' i r r' h1 h1'
  rw [h2] at h2'
  cases h2'
  have hl : (calls l).length ≤ 1 := block_calls (cfg := w.cfg c) (es := upTo (w.servers c) (max n m))
    (List.mem_of_getElem? h2)
  generalize calls l = q at h3 h3' hl
  match q, hl with
  | [z], _ => rw [List.mem_singleton.1 h3, List.mem_singleton.1 h3']
  | [], _ => cases h3

theorem returned_once {n m i : Nat} {y y' : Val × Bytes} (h : w.Returned n i y)
    (h' : w.Returned m i y') : y = y' := by
  let := httpWire
  obtain ⟨c, k, r, hd, l, h1, h2, h3⟩ := returned_le (Nat.le_max_left n m) h
  obtain ⟨c', k', r', hd', l', h1', h2', h3'⟩ := returned_le (Nat.le_max_right n m) h'
  obtain ⟨rfl, rfl, -⟩ := C90_one_request w.size (upTo w.clients (max n m)) c c' k k' i r r' h1 h1'
  rw [h2] at h2'
  cases h2'
  have hl := (block_returned (cfg := w.cfg c) (es := upTo (w.servers c) (max n m)) h2).1
  generalize Spec.returned l = q at h3 h3' hl
  match q, hl with
  | [z], _ => rw [List.mem_singleton.1 h3, List.mem_singleton.1 h3']
  | [], _ => cases h3

/-- A request is sent for a call that there is. -/
theorem sends_made {s : Sys} {e : SysEvent} {c : Conn} {i : Nat} {r : Request}
    (h : wireOf s e = some (c, .sends i r)) : i < s.calls.length := by
  cases e with
  | poll k res =>
    rw [wireOf] at h
    cases hy : s.calls[k]? with
    | none => rw [hy] at h; cases h
    | some y =>
      rw [hy] at h
      have hk := (List.getElem?_eq_some_iff.1 hy).1
      dsimp only at h
      split at h
      · obtain ⟨rfl, -⟩ := begins_conn h; exact hk
      · split at h
        · obtain ⟨rfl, -⟩ := begins_conn h; exact hk
        · cases h
      · unfold ioStep at h
        split at h <;> cases h
      · cases h
  | _ => cases h

/-- A request on the wire was sent for a call that was made at an earlier time. -/
theorem wire_made {n : Nat} {c : Conn} {i : Nat} {r : Request}
    (h : (i, r) ∈ requestsOn (w.wire (n + 1) c)) : w.Made n i := by
  obtain ⟨pre, e, post, he, hw⟩ := wireLog_split (onConn_mem.1 (requestsOn_mem.1 h))
  have hi := sends_made hw
  have hlen : ∀ evs, (Sys.run evs (.new w.size)).2.calls.length = (asked evs).length := fun evs =>
    (wire_reach w.size evs).2.len
  rw [upTo_succ] at he
  have hp : pre <+: upTo w.clients n := by
    rcases List.eq_nil_or_concat post with rfl | ⟨post', z, rfl⟩
    · have := List.append_inj' he rfl
      exact ⟨[], by rw [List.append_nil, this.1]⟩
    · have := List.append_inj' (s₁ := upTo w.clients n) (t₁ := [w.clients n]) (s₂ := pre ++ e :: post')
        (t₂ := [z]) (by rw [he]; simp) rfl
      exact ⟨e :: post', this.1.symm⟩
  obtain ⟨q, hq⟩ := hp
  rw [World.Made, World.sys, hlen, ← hq, asked_append]
  rw [hlen] at hi
  rw [List.length_append]
  omega

/-- **C124.** A handler is called for a call at most once, at one moment, and the call was made before. -/
theorem C124_moment (n i : Nat) (x : Service × Val × Val) (h : w.Invoked n i x) :
    ∃ t, w.Made t i ∧ ∀ m x', w.Invoked m i x' ↔ t < m ∧ x' = x := by
  classical
  have hex : ∃ n, w.Invoked n i x := ⟨n, h⟩
  obtain ⟨t, ht⟩ : ∃ t, Nat.find hex = t + 1 := by
    apply Nat.exists_eq_succ_of_ne_zero
    intro h0
    have := Nat.find_spec hex
    rw [h0] at this
    obtain ⟨c, k, r, hd, l, -, h2, -⟩ := this
    cases h2
  have hs := Nat.find_spec hex
  rw [ht] at hs
  refine ⟨t, ?_, fun m x' => ⟨fun hm => ?_, fun ⟨hm, hx⟩ => ?_⟩⟩
  · obtain ⟨c, k, r, hd, l, h1, -, -⟩ := hs
    exact wire_made (List.mem_of_getElem? h1)
  · have hx := invoked_once hm h
    subst hx
    have := Nat.find_min' hex hm
    exact ⟨by omega, rfl⟩
  · subst hx
    exact invoked_le hm hs

/-- **C124.** A handler returns at most once for a call, at one moment, and was called before. -/
theorem C124_return (n i : Nat) (y : Val × Bytes) (h : w.Returned n i y) :
    ∃ t, (∃ x, w.Invoked (t + 1) i x) ∧ ∀ m y', w.Returned m i y' ↔ t < m ∧ y' = y := by
  let := httpWire
  classical
  have hex : ∃ n, w.Returned n i y := ⟨n, h⟩
  obtain ⟨t, ht⟩ : ∃ t, Nat.find hex = t + 1 := by
    apply Nat.exists_eq_succ_of_ne_zero
    intro h0
    have := Nat.find_spec hex
    rw [h0] at this
    obtain ⟨c, k, r, hd, l, -, h2, -⟩ := this
    cases h2
  have hs := Nat.find_spec hex
  rw [ht] at hs
  refine ⟨t, ?_, fun m y' => ⟨fun hm => ?_, fun ⟨hm, hy⟩ => ?_⟩⟩
  · obtain ⟨c, k, r, hd, l, h1, h2, h3⟩ := hs
    obtain ⟨x, hx⟩ := (block_returned (cfg := w.cfg c) (es := upTo (w.servers c) (t + 1)) h2).2 y h3
    exact ⟨x, c, k, r, hd, l, h1, h2, hx⟩
  · have hx := returned_once hm h
    subst hx
    have := Nat.find_min' hex hm
    exact ⟨by omega, rfl⟩
  · subst hy
    exact returned_le hm hs

/-- **C124.** If a call has completed, then a handler that is ever called for it has been called and has
returned before, and what it returned is the result of the call. -/
theorem C124_within (hw : w.Honest) (he : w.Expressible types) (n m i : Nat) (y : PCall) (v : Val)
    (b : Bytes) (x : Service × Val × Val) (hy : (w.sys n).calls[i]? = some y) (hst : y.st = .done v b)
    (h : w.Invoked m i x) :
    w.Invoked n i x ∧ ∃ resp body, w.Returned n i (resp, body) ∧
      b = (if y.proc.method = .head then [] else body) ∧
      ∀ ht code, PlainResponse resp y.proc.resTy ht code → v = resp := by
  let := httpWire
  obtain ⟨fs, b0, c, k, r, hd, l, a, -, g2, g3, g4, -, g6, g7, -, g9⟩ :=
    C79_own_answer w.size (upTo w.clients n) w.cfg (fun c => upTo (w.servers c) n) w.phrase types w.read
      (he n) i y v b (hw.linked n) (hw.bodies n) (hw.safe n) hy hst
  have ha : answers l ≠ [] := by rw [g6]; simp
  obtain ⟨c', k', r', hd', l', h1, h2, h3⟩ := invoked_le (Nat.le_max_right n m) h
  obtain ⟨q1, l1, q2, q3⟩ := place_le (w := w) (Nat.le_max_left n m) g2 g3
  obtain ⟨rfl, rfl, -⟩ := C90_one_request w.size (upTo w.clients (max n m)) c c' k k' i r r' q1 h1
  rw [q2] at h2
  cases h2
  have hs := block_settled (cfg := w.cfg c) (es := upTo (w.servers c) n)
    (es' := upTo (w.servers c) (max n m)) g3 q2 q3 ha
  rw [hs.1] at h3
  refine ⟨⟨c, k, r, hd, l, g2, g3, h3⟩, ?_⟩
  obtain ⟨⟨resp, body⟩, hr⟩ := block_both (cfg := w.cfg c) (es := upTo (w.servers c) n) g3 ha h3
  refine ⟨resp, body, ⟨c, k, r, hd, l, g2, g3, hr⟩, (g9 resp body hr).1, fun ht code hp => ?_⟩
  obtain ⟨r0, e1, e2, e3, e4⟩ := C29_response_round_trip resp y.proc.resTy ht code hp body
  obtain ⟨r1, f1, rfl⟩ := block_answered (cfg := w.cfg c) (es := upTo (w.servers c) n) g3 hr
    (by rw [g6]; exact List.mem_singleton.2 rfl)
  rw [e1] at f1
  cases f1
  obtain ⟨w1, w2, w3⟩ := onWire_facts hd r0
  have := e4 [] [] (by simp [AsciiNames]) (by simp [AsciiNames]) (by simp [Foreign]) (by simp [Foreign])
  rw [List.nil_append, List.append_nil, ← w1, ← w2, g7] at this
  cases this
  rfl

omit [MethodNames] in
theorem made_le {n m i : Nat} (hnm : n ≤ m) (h : w.Made n i) : w.Made m i := by
  have hlen : ∀ evs, (Sys.run evs (.new w.size)).2.calls.length = (asked evs).length := fun evs =>
    (wire_reach w.size evs).2.len
  obtain ⟨q, hq⟩ := upTo_le w.clients hnm
  rw [World.Made, World.sys, hlen] at h ⊢
  rw [hq, asked_append, List.length_append]
  omega

theorem invoked_made {n i : Nat} {x : Service × Val × Val} (h : w.Invoked n i x) : w.Made n i := by
  obtain ⟨t, ht, hm⟩ := C124_moment n i x h
  exact made_le (Nat.le_of_lt ((hm n x).1 h).1) ht

/-- **C124.** The order of callers, also in different processes with pools of their own: if a call has
completed when another is made, and handlers are called for both, then first for the one and then for the
other. -/
theorem C124_across (w' : World) (hw : w.Honest) (he : w.Expressible types) (n i j : Nat) (v : Val)
    (b : Bytes) (hi : w.Completed n i v b) (hj : ¬ w'.Made n j) (hx : ∃ m x, w.Invoked m i x) :
    (∃ x, w.Invoked n i x) ∧ ∀ x, ¬ w'.Invoked n j x := by
  obtain ⟨y, hy, hst⟩ := hi
  obtain ⟨m, x, hx⟩ := hx
  exact ⟨⟨x, (C124_within hw he n m i y v b x hy hst hx).1⟩, fun x' hx' => hj (invoked_made hx')⟩

/-- **C124.** The order of callers. -/
theorem C124_real_time (hw : w.Honest) (he : w.Expressible types) (n i j : Nat) (v : Val) (b : Bytes)
    (hi : w.Completed n i v b) (hj : ¬ w.Made n j) (hx : ∃ m x, w.Invoked m i x) : w.Precedes i j :=
  ⟨n, C124_across w hw he n i j v b hi hj hx⟩

/-- **C124.** If the handlers together are an atomic object, it is one for the callers, in any number of
processes: a call that completes, for which a handler is ever called, takes effect once, at a time between
being made and completing, and its result is the result of the operation at that time. -/
theorem C124_linearizable {σ P : Type} (ws : P → World)
    (apply : σ → Service × Val × Val → σ × (Val × Bytes)) (acts : Nat → Option (P × Nat)) (st : Nat → σ)
    (ha : World.Atomic ws apply acts st) (hw : ∀ p, (ws p).Honest) (he : ∀ p, (ws p).Expressible types)
    (p : P) (n m i : Nat) (y : PCall) (v : Val) (b : Bytes) (x : Service × Val × Val)
    (hy : ((ws p).sys n).calls[i]? = some y) (hst : y.st = .done v b) (hx : (ws p).Invoked m i x) :
    ∃ t, (∀ t', acts t' = some (p, i) ↔ t' = t) ∧ (ws p).Made t i ∧ t < n ∧
      st (t + 1) = (apply (st t) x).1 ∧
      b = (if y.proc.method = .head then [] else (apply (st t) x).2.2) ∧
      ∀ ht code, PlainResponse (apply (st t) x).2.1 y.proc.resTy ht code → v = (apply (st t) x).2.1 := by
  obtain ⟨-, resp, body, h1, h2, h3⟩ := C124_within (hw p) (he p) n m i y v b x hy hst hx
  obtain ⟨t, x', ht, hact, hx', hr⟩ := ha.result n p i _ h1
  cases invoked_once hx hx'
  obtain ⟨x'', hx'', hs⟩ := ha.effect t p i hact
  cases invoked_once hx hx''
  refine ⟨t, ?_⟩
  rw [← hr]
  refine ⟨fun t' => ⟨fun h => ha.once _ _ _ h hact, fun h => h ▸ hact⟩, ?_, ht, hs, h2, h3⟩
  obtain ⟨u, hu, hm⟩ := C124_moment _ i x hx'
  exact made_le (Nat.lt_succ_iff.1 ((hm _ _).1 hx').1) hu

/-- **C124.** This is an order. -/
theorem C124_order (i j k : Nat) : ¬ w.Precedes i i ∧ (w.Precedes i j → ¬ w.Precedes j i) ∧
    (w.Precedes i j → w.Precedes j k → w.Precedes i k) := by
  have tr : ∀ i j k, w.Precedes i j → w.Precedes j k → w.Precedes i k := by
    rintro i j k ⟨n, ⟨x, hx⟩, h1⟩ ⟨m, ⟨x', hx'⟩, h2⟩
    have hnm : n ≤ m := by
      by_contra hc
      exact h1 x' (invoked_le (by omega) hx')
    exact ⟨m, ⟨x, invoked_le hnm hx⟩, h2⟩
  have irr : ∀ i, ¬ w.Precedes i i := fun i ⟨n, ⟨x, hx⟩, h⟩ => h x hx
  exact ⟨irr i, fun h h' => irr i (tr i j i h h'), tr i j k⟩

/-- **C124.** So calls that are made one after another, each when the one before it has completed, have
their effects in this order, each once. -/
theorem C124_program_order (hw : w.Honest) (he : w.Expressible types) (is : List Nat)
    (h : is.IsChain fun i j => ∃ n v b, w.Completed n i v b ∧ ¬ w.Made n j)
    (hx : ∀ i ∈ is, ∃ m x, w.Invoked m i x) : is.Pairwise w.Precedes := by
  have tr : ∀ {i j k}, w.Precedes i j → w.Precedes j k → w.Precedes i k := (C124_order _ _ _).2.2
  have hc : is.IsChain w.Precedes := by
    induction is with
    | nil => exact .nil
    | cons i is ih =>
      cases is with
      | nil => exact .singleton _
      | cons j is =>
        obtain ⟨⟨n, v, b, h1, h2⟩, h3⟩ := List.isChain_cons_cons.1 h
        exact List.isChain_cons_cons.2
          ⟨C124_real_time hw he n i j v b h1 h2 (hx i List.mem_cons_self),
            ih h3 fun k hk => hx k (List.mem_cons_of_mem _ hk)⟩
  have : Trans w.Precedes w.Precedes w.Precedes := ⟨tr⟩
  exact hc.pairwise

end

end Htrpc
