/-
C143: how many handlers run at a time.
-/
import Verif.Spec.Load
import Verif.Props.Server
import Verif.Props.ServerExamples

set_option linter.unusedSectionVars false

namespace Htrpc
open Spec

section
variable [FloatText] [UrlText] [JsonText] [Wire]

omit [FloatText] [JsonText] [Wire] in
/-- A handler runs on the connection. -/
def ConnState.busy (c : ConnState) : Bool := match c.phase with | .handling => true | _ => false

omit [FloatText] [JsonText] [Wire] in
/-- The connection has ended. -/
def ConnState.over (c : ConnState) : Bool :=
  match c.phase with | .finished => true | .failed => true | .panicked => true | _ => false

/-- No handler is called or done, and the end of the connection is told. -/
structure Unbusy (r : ConnState × List ConnEffect) : Prop where
  call : r.2.countP isCall = 0
  ret : r.2.countP isReturn = 0
  busy : r.1.busy = false
  over : r.2.countP isEnd = r.1.over.toNat

omit [FloatText] [JsonText] [Wire] in
theorem unbusy_fail (c : ConnState) : Unbusy c.fail := ⟨rfl, rfl, rfl, rfl⟩

omit [FloatText] [JsonText] [Wire] in
theorem unbusy_panic (c : ConnState) : Unbusy c.panic := ⟨rfl, rfl, rfl, rfl⟩

omit [FloatText] [JsonText] [Wire] in
/-- Before this, something else may have happened. -/
theorem unbusy_cons {c : ConnState} {l : List ConnEffect} (h : Unbusy (c, l)) (e : ConnEffect) (h1 : isCall e = false)
    (h2 : isReturn e = false) (h3 : isEnd e = false) : Unbusy (c, e :: l) := by
  obtain ⟨a1, a2, a3, a4⟩ := h
  exact ⟨by rw [List.countP_cons_of_neg (by simp [h1])]; exact a1, by rw [List.countP_cons_of_neg (by simp [h2])]; exact a2, a3,
    by rw [List.countP_cons_of_neg (by simp [h3])]; exact a4⟩

omit [JsonText] [Wire] in
theorem unbusy_respond (c : ConnState) (v : Val) (body : Bytes) : Unbusy (c.respond v body) := by
  rw [ConnState.respond]
  split
  · exact ⟨rfl, rfl, rfl, rfl⟩
  · exact unbusy_fail c
  · exact unbusy_panic c

omit [FloatText] [JsonText] in
theorem unbusy_withBody (c : ConnState) (h : ReqHead) (ph : ConnPhase)
    (hp : (∃ p, ph = .refusing h p) ∨ ∃ s v, ph = .readBody h s v) : Unbusy (c.withBody h ph) := by
  rw [ConnState.withBody]
  split
  · exact unbusy_fail c
  · rcases hp with ⟨p, rfl⟩ | ⟨s, v, rfl⟩ <;> exact ⟨rfl, rfl, rfl, rfl⟩

omit [JsonText] in
theorem unbusy_accept (cfg : ServerCfg) (c : ConnState) (h : ReqHead) : Unbusy (ConnState.accept cfg c h) := by
  rw [ConnState.accept]
  split
  · exact unbusy_withBody _ _ _ (.inl ⟨_, rfl⟩)
  · exact unbusy_panic _
  · split
    · exact unbusy_withBody _ _ _ (.inl ⟨_, rfl⟩)
    · rw [ConnState.handle]
      split
      · exact unbusy_withBody _ _ _ (.inl ⟨_, rfl⟩)
      · exact unbusy_withBody _ _ _ (.inr ⟨_, _, rfl⟩)
      · exact unbusy_panic _
    · exact unbusy_fail _
    · exact unbusy_panic _

theorem unbusy_pollHead (cfg : ServerCfg) (c : ConnState) (hc : c.phase = .readHead) : Unbusy (c.pollHead cfg) := by
  rw [ConnState.pollHead]
  split
  · exact unbusy_cons (unbusy_accept cfg _ _) _ rfl rfl rfl
  · exact unbusy_fail c
  · split
    · exact ⟨rfl, rfl, by simp [ConnState.busy, hc], by simp [ConnState.over, hc]⟩
    · exact ⟨rfl, rfl, rfl, rfl⟩
    · exact ⟨rfl, rfl, rfl, rfl⟩
    · exact unbusy_fail c

theorem unbusy_pollRefusing (c : ConnState) (h : ReqHead) (p : Problem) (hc : c.phase = .refusing h p) :
    Unbusy (c.pollRefusing h p) := by
  rw [ConnState.pollRefusing]
  split
  · exact unbusy_fail c
  · split
    · exact unbusy_cons (unbusy_respond _ _ _) _ rfl rfl rfl
    · exact unbusy_fail c
    · split
      · exact ⟨rfl, rfl, by simp [ConnState.busy, hc], by simp [ConnState.over, hc]⟩
      · exact unbusy_fail c

/-- The balance of one step. -/
structure Balance (c : ConnState) (r : ConnState × List ConnEffect) : Prop where
  calls : r.2.countP isCall + c.busy.toNat = r.2.countP isReturn + r.1.busy.toNat
  ends : r.2.countP isEnd + c.over.toNat = r.1.over.toNat

omit [FloatText] [JsonText] [Wire] in
theorem Unbusy.balance {c : ConnState} {r : ConnState × List ConnEffect} (h : Unbusy r) (hb : c.busy = false)
    (ho : c.over = false) : Balance c r := by
  obtain ⟨h1, h2, h3, h4⟩ := h
  exact ⟨by rw [h1, h2, h3, hb], by rw [h4, ho]; rfl⟩

theorem balance_step (cfg : ServerCfg) (c : ConnState) (e : ConnEvent) : Balance c (c.step cfg e) := by
  have same : ∀ c' : ConnState, c'.phase = c.phase → Balance c (c', []) := by
    intro c' h
    exact ⟨by simp [ConnState.busy, h], by simp [ConnState.over, h]⟩
  cases e with
  | recv bs =>
    rw [ConnState.step]
    split <;> exact same _ rfl
  | close k =>
    rw [ConnState.step]
    split <;> exact same _ rfl
  | notReady => exact same _ rfl
  | connected ok =>
    rw [ConnState.step]
    split
    · rename_i h
      split
      · exact ⟨by simp [ConnState.busy, h], by simp [ConnState.over, h]⟩
      · exact (unbusy_fail c).balance (by simp [ConnState.busy, h]) (by simp [ConnState.over, h])
    · exact same _ rfl
  | input =>
    rw [ConnState.step]
    split
    · rename_i h
      exact (unbusy_pollHead cfg c h).balance (by simp [ConnState.busy, h]) (by simp [ConnState.over, h])
    · rename_i h
      exact (unbusy_pollRefusing c _ _ h).balance (by simp [ConnState.busy, h]) (by simp [ConnState.over, h])
    · exact same _ rfl
  | bodyRead w rest =>
    rw [ConnState.step]
    split
    · rename_i h
      split
      · exact same _ rfl
      · split
        · exact ⟨by simp [ConnState.busy, h, isCall, isReturn], by simp [ConnState.over, h, isEnd]⟩
        · exact same _ rfl
    · exact same _ rfl
  | bodyFailed =>
    rw [ConnState.step]
    split
    · rename_i h
      exact (unbusy_fail c).balance (by simp [ConnState.busy, h]) (by simp [ConnState.over, h])
    · exact same _ rfl
  | handled v body =>
    rw [ConnState.step]
    split
    · rename_i h
      obtain ⟨h1, h2, h3, h4⟩ := unbusy_respond c v body
      refine ⟨?_, ?_⟩
      · simp only [List.countP_cons, isCall, isReturn, h1, h2, h3]
        simp [ConnState.busy, h]
      · simp only [List.countP_cons, isEnd, h4]
        simp [ConnState.over, h]
    · exact same _ rfl
  | written ok =>
    rw [ConnState.step]
    split
    · rename_i h
      split
      · exact ⟨by simp [ConnState.busy, h, isCall, isReturn], by simp [ConnState.over, h, isEnd]⟩
      · exact (unbusy_fail c).balance (by simp [ConnState.busy, h]) (by simp [ConnState.over, h])
    · exact same _ rfl

/-- What the log tells of the connections. -/
structure Ledger (log : List ServerEffect) (s : ServerState) : Prop where
  clients : clients log = s.conns.length
  calls : onConns isCall log = onConns isReturn log + s.conns.countP ConnState.busy
  ends : onConns isEnd log = s.conns.countP ConnState.over

theorem onConns_append (f : ConnEffect → Bool) (l l' : List ServerEffect) :
    onConns f (l ++ l') = onConns f l + onConns f l' := List.countP_append

theorem onConns_map (f : ConnEffect → Bool) (i : Nat) (l : List ConnEffect) :
    onConns f (l.map (.conn i)) = l.countP f := by
  rw [onConns, List.countP_map]
  rfl

theorem clients_map (i : Nat) (l : List ConnEffect) : clients (l.map (.conn i)) = 0 := by
  rw [Spec.clients, List.countP_map, List.countP_eq_zero]
  intro e _
  simp

theorem countP_set' {α : Type} (p : α → Bool) {l : List α} {i : Nat} {a b : α} (h : l[i]? = some a) :
    (l.set i b).countP p + (p a).toNat = l.countP p + (p b).toNat := by
  induction l generalizing i with
  | nil => cases h
  | cons x l ih =>
    cases i with
    | zero =>
      cases h
      simp only [List.set_cons_zero, List.countP_cons]
      cases p a <;> cases p b <;> simp
    | succ i =>
      have := ih (i := i) (by simpa using h)
      simp only [List.set_cons_succ, List.countP_cons]
      omega

theorem ledger_step {log : List ServerEffect} {s : ServerState} (cfg : ServerCfg) (h : Ledger log s) (e : ServerEvent) :
    Ledger (log ++ (s.step cfg e).2) (s.step cfg e).1 := by
  have same : ∀ s' : ServerState, s'.conns = s.conns → ∀ es : List ServerEffect, Spec.clients es = 0 →
      (∀ f, onConns f es = 0) → Ledger (log ++ es) s' := by
    intro s' hs es h1 h2
    refine ⟨?_, ?_, ?_⟩
    · rw [hs, ← h.clients, Spec.clients, List.countP_append]
      simpa [Spec.clients] using h1
    · rw [onConns_append, onConns_append, h2, h2, hs]
      exact h.calls
    · rw [onConns_append, h2, hs]
      exact h.ends
  cases e with
  | bound ok =>
    rw [ServerState.step]
    split
    · split <;> (refine same _ ?_ _ ?_ ?_ <;> intros <;> rfl)
    · (refine same _ ?_ _ ?_ ?_ <;> intros <;> rfl)
  | client =>
    rw [ServerState.step]
    split
    · refine ⟨?_, ?_, ?_⟩
      · have := h.clients
        rw [Spec.clients] at this
        rw [Spec.clients, List.countP_append, this]
        simp
      · rw [onConns_append, onConns_append, List.countP_append]
        exact h.calls
      · rw [onConns_append, List.countP_append]
        exact h.ends
    · (refine same _ ?_ _ ?_ ?_ <;> intros <;> rfl)
  | listenFailed =>
    rw [ServerState.step]
    split <;> (refine same _ ?_ _ ?_ ?_ <;> intros <;> rfl)
  | listenEnded =>
    rw [ServerState.step]
    split <;> (refine same _ ?_ _ ?_ ?_ <;> intros <;> rfl)
  | conn i e =>
    rw [ServerState.step]
    cases hc : s.conns[i]? with
    | none => (refine same _ ?_ _ ?_ ?_ <;> intros <;> rfl)
    | some c =>
      obtain ⟨b1, b2⟩ := balance_step cfg c e
      have h1 := h.clients
      have h2 := h.calls
      have h3 := h.ends
      have k1 := countP_set' ConnState.busy (b := (c.step cfg e).1) hc
      have k2 := countP_set' ConnState.over (b := (c.step cfg e).1) hc
      refine ⟨?_, ?_, ?_⟩
      · show Spec.clients (log ++ (c.step cfg e).2.map (.conn i)) = (s.conns.set i (c.step cfg e).1).length
        have := clients_map i (c.step cfg e).2
        rw [Spec.clients] at h1 this
        rw [List.length_set, Spec.clients, List.countP_append, h1, this]
        rfl
      · show onConns isCall (log ++ (c.step cfg e).2.map (.conn i)) =
          onConns isReturn (log ++ (c.step cfg e).2.map (.conn i)) + (s.conns.set i (c.step cfg e).1).countP ConnState.busy
        rw [onConns_append, onConns_append, onConns_map, onConns_map]
        omega
      · show onConns isEnd (log ++ (c.step cfg e).2.map (.conn i)) = (s.conns.set i (c.step cfg e).1).countP ConnState.over
        rw [onConns_append, onConns_map]
        omega

theorem ledger_run (cfg : ServerCfg) (es : List ServerEvent) {log : List ServerEffect} {s : ServerState}
    (h : Ledger log s) : Ledger (log ++ (s.run cfg es).2) (s.run cfg es).1 := by
  induction es generalizing log s with
  | nil => simpa [ServerState.run] using h
  | cons e es ih =>
    have := ih (ledger_step cfg h e)
    rw [List.append_assoc] at this
    exact this

theorem ledger_reach (cfg : ServerCfg) (es : List ServerEvent) :
    Ledger (ServerState.run cfg .new es).2 (ServerState.run cfg .new es).1 := by
  have : Ledger [] .new := ⟨rfl, rfl, rfl⟩
  simpa using ledger_run cfg es this

/-- **C143.** At every moment at most so many handlers run as there are connections that have been accepted and have
not ended: handlers called and connections ended are together not more than handlers done and connections accepted.
And no more handlers are done than were called. -/
theorem C143_running (cfg : ServerCfg) (es : List ServerEvent) :
    onConns isReturn (ServerState.run cfg .new es).2 ≤ onConns isCall (ServerState.run cfg .new es).2 ∧
    onConns isCall (ServerState.run cfg .new es).2 + onConns isEnd (ServerState.run cfg .new es).2 ≤
      onConns isReturn (ServerState.run cfg .new es).2 + clients (ServerState.run cfg .new es).2 := by
  obtain ⟨h1, h2, h3⟩ := ledger_reach cfg es
  generalize hs : (ServerState.run cfg .new es).1 = s at h1 h2 h3
  have key : ∀ l : List ConnState, l.countP ConnState.busy + l.countP ConnState.over ≤ l.length := by
    intro l
    induction l with
    | nil => exact Nat.le_refl _
    | cons c l ih =>
      have : c.busy = true → c.over = false := by
        rw [ConnState.busy, ConnState.over]
        split
        · rename_i h
          simp [h]
        · simp
      simp only [List.countP_cons, List.length_cons]
      cases hb : c.busy
      · simp only [Bool.false_eq_true, ↓reduceIte]
        split <;> omega
      · rw [this hb]
        simp only [Bool.false_eq_true, ↓reduceIte]
        omega
  have := key s.conns
  omega

/-- The connection of which this is told. -/
theorem onOne_append (i : Nat) (f : ConnEffect → Bool) (l l' : List ServerEffect) :
    onOne i f (l ++ l') = onOne i f l + onOne i f l' := List.countP_append

theorem onOne_map (i j : Nat) (f : ConnEffect → Bool) (l : List ConnEffect) :
    onOne i f (l.map (.conn j)) = if j = i then l.countP f else 0 := by
  rw [onOne, List.countP_map]
  split
  · rename_i h
    subst h
    congr 1
    funext e
    simp
  · rename_i h
    rw [List.countP_eq_zero]
    intro e _
    simp [h]

theorem one_step {i : Nat} {log : List ServerEffect} {s : ServerState} (cfg : ServerCfg) (e : ServerEvent)
    (h : onOne i isCall log = onOne i isReturn log + ((s.conns[i]?).elim false ConnState.busy).toNat) :
    onOne i isCall (log ++ (s.step cfg e).2) = onOne i isReturn (log ++ (s.step cfg e).2) +
      (((s.step cfg e).1.conns[i]?).elim false ConnState.busy).toNat := by
  have same : ∀ s' : ServerState, s'.conns = s.conns → ∀ es : List ServerEffect, (∀ f, onOne i f es = 0) →
      onOne i isCall (log ++ es) = onOne i isReturn (log ++ es) + ((s'.conns[i]?).elim false ConnState.busy).toNat := by
    intro s' hs es h2
    rw [onOne_append, onOne_append, h2, h2, hs]
    exact h
  cases e with
  | bound ok =>
    rw [ServerState.step]
    split
    · split <;> (refine same _ ?_ _ ?_ <;> intros <;> rfl)
    · (refine same _ ?_ _ ?_ <;> intros <;> rfl)
  | client =>
    rw [ServerState.step]
    split
    · rw [onOne_append, onOne_append]
      show onOne i isCall log + 0 = onOne i isReturn log + 0 + ((((s.conns ++ [ConnState.new])[i]?).elim false ConnState.busy).toNat)
      rw [Nat.add_zero, Nat.add_zero, h]
      congr 2
      rcases Nat.lt_trichotomy i s.conns.length with hl | hl | hl
      · rw [List.getElem?_append_left hl]
      · rw [List.getElem?_eq_none (by omega), hl, List.getElem?_concat_length]
        rfl
      · rw [List.getElem?_eq_none (by omega), List.getElem?_eq_none (by simp; omega)]
    · (refine same _ ?_ _ ?_ <;> intros <;> rfl)
  | listenFailed =>
    rw [ServerState.step]
    split <;> (refine same _ ?_ _ ?_ <;> intros <;> rfl)
  | listenEnded =>
    rw [ServerState.step]
    split <;> (refine same _ ?_ _ ?_ <;> intros <;> rfl)
  | conn j e =>
    rw [ServerState.step]
    cases hc : s.conns[j]? with
    | none => (refine same _ ?_ _ ?_ <;> intros <;> rfl)
    | some c =>
      obtain ⟨b1, -⟩ := balance_step cfg c e
      show onOne i isCall (log ++ (c.step cfg e).2.map (.conn j)) = onOne i isReturn (log ++ (c.step cfg e).2.map (.conn j)) +
        (((s.conns.set j (c.step cfg e).1)[i]?).elim false ConnState.busy).toNat
      rw [onOne_append, onOne_append, onOne_map, onOne_map]
      by_cases hj : j = i
      · subst hj
        have hl := (List.getElem?_eq_some_iff.1 hc).1
        rw [hc] at h
        rw [if_pos rfl, if_pos rfl, List.getElem?_set_self hl]
        simp only [Option.elim_some] at h ⊢
        omega
      · rw [if_neg hj, if_neg hj, List.getElem?_set_ne hj]
        exact h

/-- **C143.** On each connection one handler runs at a time: a handler is called only if the one before is done. -/
theorem C143_one_at_a_time (cfg : ServerCfg) (es : List ServerEvent) (i : Nat) :
    onOne i isReturn (ServerState.run cfg .new es).2 ≤ onOne i isCall (ServerState.run cfg .new es).2 ∧
    onOne i isCall (ServerState.run cfg .new es).2 ≤ onOne i isReturn (ServerState.run cfg .new es).2 + 1 := by
  have key : ∀ (es : List ServerEvent) (log : List ServerEffect) (s : ServerState),
      onOne i isCall log = onOne i isReturn log + ((s.conns[i]?).elim false ConnState.busy).toNat →
      onOne i isCall (log ++ (s.run cfg es).2) = onOne i isReturn (log ++ (s.run cfg es).2) +
        (((s.run cfg es).1.conns[i]?).elim false ConnState.busy).toNat := by
    intro es
    induction es with
    | nil => intro log s h; simpa [ServerState.run] using h
    | cons e es ih =>
      intro log s h
      have := ih _ _ (one_step cfg e h)
      rw [List.append_assoc] at this
      exact this
  have := key es [] .new rfl
  rw [List.nil_append] at this
  have hle : ∀ b : Bool, b.toNat ≤ 1 := by decide
  have := hle (((ServerState.run cfg .new es).1.conns[i]?).elim false ConnState.busy)
  omega

/-- Only the connection `i` goes on. -/
theorem run_one (cfg : ServerCfg) (i : Nat) (es : List ConnEvent) {s : ServerState} {c : ConnState}
    (h : s.conns[i]? = some c) : ServerState.run cfg s (es.map (.conn i)) =
      (⟨s.phase, s.conns.set i (c.run cfg es).1⟩, (c.run cfg es).2.map (.conn i)) := by
  induction es generalizing s c with
  | nil =>
    have : s.conns.set i c = s.conns := by
      obtain ⟨hl, rfl⟩ := List.getElem?_eq_some_iff.1 h
      exact List.set_getElem_self hl
    simp only [List.map_nil, ServerState.run, ConnState.run, this]
  | cons e es ih =>
    have hl := (List.getElem?_eq_some_iff.1 h).1
    have hst : s.step cfg (.conn i e) = (⟨s.phase, s.conns.set i (c.step cfg e).1⟩, (c.step cfg e).2.map (.conn i)) := by
      simp only [ServerState.step, h]
    have := ih (s := ⟨s.phase, s.conns.set i (c.step cfg e).1⟩) (c := (c.step cfg e).1) (List.getElem?_set_self hl)
    simp only [List.map_cons, ServerState.run, hst, this, ConnState.run, List.set_set, List.map_append]

/-- The history in which `k` clients come and the same happens on the connection of each. -/
def crowd (es : List ConnEvent) : Nat → List ServerEvent
  | 0 => [.bound true]
  | k + 1 => crowd es k ++ .client :: es.map (.conn k)

theorem crowd_run (cfg : ServerCfg) (es : List ConnEvent) (k : Nat) :
    (ServerState.run cfg .new (crowd es k)).1 = ⟨.listening, List.replicate k (ConnState.run cfg .new es).1⟩ := by
  induction k with
  | zero => rfl
  | succ k ih =>
    rw [crowd, server_run_append]
    simp only [ih, ServerState.run, ServerState.step]
    rw [run_one cfg k es (c := .new) (by simp)]
    simp [List.replicate_succ']

/-- **C143.** The server sets no limit: if a handler can run at all, then any number of them run at the same time in
some history. -/
theorem C143_no_limit (cfg : ServerCfg) (es : List ConnEvent)
    (h : (connLog cfg es).countP isReturn < (connLog cfg es).countP isCall) (k : Nat) :
    ∃ evs, onConns isCall (ServerState.run cfg .new evs).2 = onConns isReturn (ServerState.run cfg .new evs).2 + k := by
  refine ⟨crowd es k, ?_⟩
  obtain ⟨-, h2, -⟩ := ledger_reach cfg (crowd es k)
  have h1 := (ledger_reach cfg (crowd es 1)).calls
  have hb : (ConnState.run cfg .new es).1.busy = true := by
    have e : (ServerState.run cfg .new (crowd es 1)).2 =
        [.started, .spawned 0] ++ (connLog cfg es).map (.conn 0) := by
      rw [crowd, crowd]
      simp only [List.singleton_append, ServerState.run, ServerState.step, ServerState.new, if_true]
      rw [run_one cfg 0 es (c := .new) rfl]
      rfl
    rw [crowd_run, e, onConns_append, onConns_append, onConns_map, onConns_map] at h1
    have z : ∀ f, onConns f [ServerEffect.started, .spawned 0] = 0 := fun _ => rfl
    rw [z, z] at h1
    by_contra hn
    simp only [List.replicate_one, List.countP_cons, List.countP_nil, hn] at h1
    simp at h1
    omega
  rw [crowd_run] at h2
  rw [h2]
  congr 1
  rw [List.countP_replicate, if_pos hb]

end

namespace LoadExamples
open ServerExamples ToyJson ToyWire

/-- A request that is handled. -/
def exCalled : List ConnEvent :=
  [.connected true, .input, .recv (exBytes 1 "/users/7".toList [9]), .notReady, .input, .bodyRead exVal []]

/-- This meets the hypothesis of `C143_no_limit`: the handler has been called and is not done. -/
theorem ex_called : letI := toyFloat; letI := toyUrl; letI := toyJson; letI := toyWire
    (connLog exCfg exCalled).countP isReturn < (connLog exCfg exCalled).countP isCall := by
  decide +kernel

example : letI := toyFloat; letI := toyUrl; letI := toyJson; letI := toyWire
    ∃ evs, onConns isCall (ServerState.run exCfg .new evs).2 =
      onConns isReturn (ServerState.run exCfg .new evs).2 + 1000 := by
  let := toyFloat
  let := toyUrl
  let := toyJson
  let := toyWire
  exact C143_no_limit exCfg exCalled ex_called 1000

/-- Two clients; the first is answered, the handler of the second still runs. -/
example : letI := toyFloat; letI := toyUrl; letI := toyJson; letI := toyWire
    onConns isCall (ServerState.run exCfg .new (crowd exCalled 2 ++ [.conn 0 (.handled (.unitVariant "Ok".toList) [4])])).2 = 2 ∧
    onConns isReturn (ServerState.run exCfg .new (crowd exCalled 2 ++ [.conn 0 (.handled (.unitVariant "Ok".toList) [4])])).2 = 1 := by
  decide +kernel

end LoadExamples

end Htrpc
