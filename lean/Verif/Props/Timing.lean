/-
C127: timing does not matter to a connection.
-/
import Verif.Spec.Timing
import Verif.Props.Stream
import Mathlib.Data.List.Induction

set_option linter.unusedSectionVars false

namespace Htrpc
open Spec

section
variable [FloatText] [UrlText] [JsonText] [Wire]

/-- The same connection when these bytes have arrived too, and then the end. -/
def later (t : Bytes) (fin : Option Closed) (c : ConnState) : ConnState :=
  { c with input := c.input ++ t, closed := fin }

theorem later_respond (t : Bytes) (fin : Option Closed) (c : ConnState) (v : Val) (b : Bytes) :
    (later t fin c).respond v b = (later t fin (c.respond v b).1, (c.respond v b).2) := by
  simp only [ConnState.respond]
  cases serResponse v b <;> rfl

theorem later_withBody (t : Bytes) (fin : Option Closed) (c : ConnState) (h : ReqHead) (p : ConnPhase) :
    (later t fin c).withBody h p = (later t fin (c.withBody h p).1, (c.withBody h p).2) := by
  simp only [ConnState.withBody]
  cases Wire.body h.headers <;> rfl

theorem later_handle (t : Bytes) (fin : Option Closed) (cfg : ServerCfg) (c : ConnState) (h : ReqHead)
    (s : Service) (g : Target) :
    (later t fin c).handle cfg h s g =
      (later t fin (c.handle cfg h s g).1, (c.handle cfg h s g).2) := by
  simp only [ConnState.handle]
  cases deRequest s.entry s.reqTy g h.headers with
  | ok v => exact later_withBody ..
  | err e => exact later_withBody ..
  | panic => rfl

theorem later_accept (t : Bytes) (fin : Option Closed) (cfg : ServerCfg) (c : ConnState) (h : ReqHead) :
    (later t fin c).accept cfg h = (later t fin (c.accept cfg h).1, (c.accept cfg h).2) := by
  simp only [ConnState.accept]
  have e : ({ later t fin c with method := h.method } : ConnState) =
      later t fin { c with method := h.method } := rfl
  rw [e]
  cases parseRelativeUrl cfg.oracle h.target with
  | err _ => exact later_withBody ..
  | panic => rfl
  | ok g =>
    dsimp only
    cases routeUrl cfg.router h.method g with
    | ok r =>
      cases r with
      | error e => exact later_withBody ..
      | ok s => exact later_handle ..
    | err _ => rfl
    | panic => rfl

variable (cfg : ServerCfg) (read : Service → Val → Bytes → Val)
  (respond : List ConnEffect → Val × Bytes) (bytes : Bytes) (fin : Option Closed)

/-- What happens next on a connection on which everything has arrived. -/
def nextOn (c : ConnState) (l : List ConnEffect) : ConnEvent :=
  match c.phase with
  | .connecting => .connected true
  | .readHead => .input
  | .refusing _ _ => .input
  | .readBody h s v =>
    match Wire.body h.headers with
    | none => .notReady
    | some f =>
      match f c.input with
      | .done b rest => .bodyRead (read s v b) rest
      | _ => .notReady
  | .handling => .handled (respond l).1 (respond l).2
  | .writing => .written true
  | _ => .notReady

/-- What happens on a connection on which everything has arrived before. -/
def atOnce : Nat → ConnState × List ConnEffect
  | 0 => (later bytes fin .new, [])
  | n + 1 =>
    let c := (atOnce n).1
    let l := (atOnce n).2
    ((c.step cfg (nextOn read respond c l)).1, l ++ (c.step cfg (nextOn read respond c l)).2)

theorem atOnce_prefix {n m : Nat} (h : n ≤ m) :
    (atOnce cfg read respond bytes fin n).2 <+: (atOnce cfg read respond bytes fin m).2 := by
  obtain ⟨k, rfl⟩ := Nat.exists_eq_add_of_le h
  clear h
  induction k with
  | zero => exact List.prefix_refl _
  | succ k ih => exact ih.trans ⟨_, rfl⟩

/-- What remains when the head or the body is not there yet. -/
def waits (t : Bytes) (c : ConnState) : Prop := (c.closed = none) ∨ (t = [] ∧ c.closed = fin)

/-- An event that is not about what arrives changes nothing, or happens on the other connection
too. -/
theorem later_step (t : Bytes) (c : ConnState) (l : List ConnEffect) (e : ConnEvent)
    (hw : waits fin t c) (hs : ¬ Breaks c e)
    (hr : ∀ w rest, e = .bodyRead w rest → ∀ h s v, c.phase = .readBody h s v →
      ∀ f, Wire.body h.headers = some f → ∃ b, f c.input = .done b rest ∧ w = read s v b)
    (hh : ∀ v b, e = .handled v b → c.phase = .handling → (v, b) = respond l)
    (h1 : ∀ bs, e ≠ .recv bs) (h2 : ∀ k, e ≠ .close k) :
    c.step cfg e = (c, []) ∨
      (later t fin c).step cfg (nextOn read respond (later t fin c) l) =
        (later t fin (c.step cfg e).1, (c.step cfg e).2) := by
  cases e with
  | recv bs => exact absurd rfl (h1 bs)
  | close k => exact absurd rfl (h2 k)
  | notReady => exact .inl rfl
  | bodyFailed =>
    obtain ⟨ph, m, inp, cl⟩ := c
    cases ph with
    | readBody h s v => exact absurd (.body rfl) hs
    | _ => exact .inl rfl
  | connected ok =>
    cases ok with
    | false =>
      obtain ⟨ph, m, inp, cl⟩ := c
      cases ph with
      | connecting => exact absurd (.connect rfl) hs
      | _ => exact .inl rfl
    | true =>
      obtain ⟨ph, m, inp, cl⟩ := c
      cases ph with
      | connecting => exact .inr rfl
      | _ => exact .inl rfl
  | written ok =>
    cases ok with
    | false =>
      obtain ⟨ph, m, inp, cl⟩ := c
      cases ph with
      | writing => exact absurd (.write rfl) hs
      | _ => exact .inl rfl
    | true =>
      obtain ⟨ph, m, inp, cl⟩ := c
      cases ph with
      | writing => exact .inr rfl
      | _ => exact .inl rfl
  | handled v b =>
    obtain ⟨ph, m, inp, cl⟩ := c
    cases ph with
    | handling =>
      right
      have e := hh v b rfl rfl
      have n : nextOn read respond (later t fin ⟨.handling, m, inp, cl⟩) l = .handled v b := by
        show ConnEvent.handled (respond l).1 (respond l).2 = _
        rw [← e]
      rw [n]
      show ((ConnState.respond (later t fin ⟨.handling, m, inp, cl⟩) v b).1, _ :: (ConnState.respond (later t fin ⟨.handling, m, inp, cl⟩) v b).2) = _
      rw [later_respond]
      rfl
    | _ => exact .inl rfl
  | bodyRead w rest =>
    obtain ⟨ph, m, inp, cl⟩ := c
    cases ph with
    | readBody h s v =>
      cases hf : Wire.body h.headers with
      | none => left; simp only [ConnState.step, hf]
      | some f =>
        right
        obtain ⟨b, hb, rfl⟩ := hr w rest rfl h s v rfl f hf
        have hb : f inp = .done b rest := hb
        have hb' := Wire.body_append _ _ _ _ _ t hf hb
        have n : nextOn read respond (later t fin ⟨.readBody h s v, m, inp, cl⟩) l =
            .bodyRead (read s v b) (rest ++ t) := by
          simp only [nextOn, later, hf, hb']
        have L1 : ConnState.leaves f inp rest = true := by
          simp [ConnState.leaves, hb, Wire.body_rest _ _ _ _ _ hf hb]
        have L2 : ConnState.leaves f (inp ++ t) (rest ++ t) = true := by
          have := Wire.body_rest _ _ _ _ _ hf hb'
          simp [ConnState.leaves, hb', this]
        rw [n]
        simp only [ConnState.step, later, hf, L1, L2, if_true]
    | _ => exact .inl rfl
  | input =>
    obtain ⟨ph, m, inp, cl⟩ := c
    cases ph with
    | readHead =>
      show ConnState.pollHead cfg ⟨.readHead, m, inp, cl⟩ = _ ∨
        ConnState.pollHead cfg (later t fin ⟨.readHead, m, inp, cl⟩) =
          (later t fin (ConnState.pollHead cfg ⟨.readHead, m, inp, cl⟩).1,
            (ConnState.pollHead cfg ⟨.readHead, m, inp, cl⟩).2)
      cases hd : Wire.head inp with
      | done h rest =>
        right
        have hd' := Wire.head_append _ _ _ t hd
        simp only [ConnState.pollHead, later, hd, hd']
        have := later_accept t fin cfg ⟨.readHead, m, rest, cl⟩ h
        rw [later] at this
        rw [this]
        rfl
      | bad =>
        right
        have hd' := Wire.head_bad _ t hd
        simp only [ConnState.pollHead, later, hd, hd']
        rfl
      | more =>
        rcases hw with hw | ⟨rfl, hw⟩
        · left
          have hw : cl = none := hw
          subst hw
          simp only [ConnState.pollHead, hd]
        · have hw : cl = fin := hw
          subst hw
          simp only [ConnState.pollHead, later, List.append_nil, hd]
          cases cl with
          | none => exact .inl rfl
          | some k => right; cases k <;> rfl
    | refusing h p =>
      show ConnState.pollRefusing ⟨.refusing h p, m, inp, cl⟩ h p = _ ∨
        ConnState.pollRefusing (later t fin ⟨.refusing h p, m, inp, cl⟩) h p =
          (later t fin (ConnState.pollRefusing ⟨.refusing h p, m, inp, cl⟩ h p).1,
            (ConnState.pollRefusing ⟨.refusing h p, m, inp, cl⟩ h p).2)
      cases hf : Wire.body h.headers with
      | none =>
        right
        simp only [ConnState.pollRefusing, hf]
        rfl
      | some f =>
        cases hd : f inp with
        | done b rest =>
          right
          have hd' := Wire.body_append _ _ _ _ _ t hf hd
          simp only [ConnState.pollRefusing, later, hf, hd, hd']
          have := later_respond t fin ⟨.refusing h p, m, rest, cl⟩ (ProblemResponse.ofProblem p).toVal
            (ProblemResponse.ofProblem p).bodyBytes
          rw [later] at this
          rw [this]
          rfl
        | bad =>
          right
          have hd' := Wire.body_bad _ _ _ t hf hd
          simp only [ConnState.pollRefusing, later, hf, hd, hd']
          rfl
        | more =>
          rcases hw with hw | ⟨rfl, hw⟩
          · left
            have hw : cl = none := hw
            subst hw
            simp only [ConnState.pollRefusing, hf, hd]
          · have hw : cl = fin := hw
            subst hw
            simp only [ConnState.pollRefusing, later, List.append_nil, hf, hd]
            cases cl with
            | none => exact .inl rfl
            | some k => exact .inr rfl
    | _ => exact .inl rfl

variable {cfg read respond bytes fin}

omit [FloatText] [UrlText] [JsonText] [Wire] in
theorem arriving_open {a : List ConnEvent} (h : ∀ k, .close k ∉ a) (b : List ConnEvent) :
    arriving (a ++ b) = arriving a ++ arriving b := by
  induction a with
  | nil => rfl
  | cons e a ih =>
    have ih := ih fun k hk => h k (List.mem_cons_of_mem _ hk)
    cases e with
    | recv bs =>
      show bs ++ arriving (a ++ b) = bs ++ arriving a ++ arriving b
      rw [ih, List.append_assoc]
    | close k => exact absurd List.mem_cons_self (h k)
    | _ => exact ih

theorem supplied_left {es es' : List ConnEvent}
    (h : Supplied cfg read respond bytes fin (es ++ es')) : Supplied cfg read respond bytes fin es where
  arrives := (arriving_prefix es es').trans h.arrives
  ends a k z hz := h.ends a k (z ++ es') (by rw [hz]; simp)
  reads := (readsWhole_split h.reads).1
  responds a v b z hz := h.responds a v b (z ++ es') (by rw [hz]; simp)

theorem given_left {es es' : List ConnEvent}
    (h : Given cfg read respond bytes fin (es ++ es')) : Given cfg read respond bytes fin es where
  toSupplied := supplied_left h.toSupplied
  smooth a e z hz := h.smooth a e (z ++ es') (by rw [hz]; simp)

/-- A history has come as far as the connection on which everything has arrived was at some time. -/
theorem given_atOnce (es : List ConnEvent) (h : Given cfg read respond bytes fin es) :
    ∃ n t, ((∀ k, .close k ∉ es) ∧ (ConnState.run cfg .new es).1.closed = none ∧
        arriving es ++ t = bytes ∨
      t = [] ∧ fin ≠ none ∧ (ConnState.run cfg .new es).1.closed = fin) ∧
    atOnce cfg read respond bytes fin n =
      (later t fin (ConnState.run cfg .new es).1, connLog cfg es) := by
  induction es using List.reverseRecOn with
  | nil => exact ⟨0, bytes, .inl ⟨by simp, rfl, rfl⟩, rfl⟩
  | append_singleton es e ih =>
    obtain ⟨n, t, ho, hn⟩ := ih (given_left h)
    have hstep : ConnState.run cfg .new (es ++ [e]) =
        (((ConnState.run cfg .new es).1.step cfg e).1,
          (ConnState.run cfg .new es).2 ++ ((ConnState.run cfg .new es).1.step cfg e).2) := by
      rw [conn_run_append]
      simp [ConnState.run]
    have hrd := (readsWhole_split h.reads).2.1
    have hrs : ∀ v b, e = .handled v b → (ConnState.run cfg .new es).1.phase = .handling →
        (v, b) = respond (connLog cfg es) := fun v b he hp =>
      h.responds es v b [] (by rw [he]) hp
    have hsm := h.smooth es e [] rfl
    have harr := h.arrives
    have hends := h.ends es
    rw [connLog] at hn hrs ⊢
    rw [hstep]
    generalize (ConnState.run cfg .new es).1 = c at *
    generalize (ConnState.run cfg .new es).2 = l at *
    by_cases h1 : ∃ bs, e = .recv bs
    · obtain ⟨bs, rfl⟩ := h1
      rcases ho with ⟨hc, hcl, ht⟩ | ⟨rfl, hne, hcl⟩
      · rw [arriving_open hc] at harr
        have harr : arriving es ++ (bs ++ []) <+: bytes := harr
        rw [List.append_nil] at harr
        obtain ⟨t', ht'⟩ := harr
        have : t = bs ++ t' := by
          rw [← ht, List.append_assoc] at ht'
          exact (List.append_cancel_left ht').symm
        subst this
        have es' : c.step cfg (.recv bs) = ({ c with input := c.input ++ bs }, []) := by
          simp only [ConnState.step, hcl]
        rw [es']
        refine ⟨n, t', .inl ⟨?_, hcl, ?_⟩, ?_⟩
        · intro k hk
          simp only [List.mem_append, List.mem_singleton, reduceCtorEq, or_false] at hk
          exact hc k hk
        · rw [arriving_open hc]
          show arriving es ++ (bs ++ []) ++ t' = bytes
          rw [List.append_nil, ht']
        · rw [hn]
          simp [later]
      · have es' : c.step cfg (.recv bs) = (c, []) := by
          cases hk : c.closed with
          | none => exact absurd (hcl.symm.trans hk) hne
          | some k => simp only [ConnState.step, hk]
        rw [es']
        exact ⟨n, [], .inr ⟨rfl, hne, hcl⟩, by rw [hn]; simp⟩
    by_cases h2 : ∃ k, e = .close k
    · obtain ⟨k, rfl⟩ := h2
      rcases ho with ⟨hc, hcl, ht⟩ | ⟨rfl, hne, hcl⟩
      · obtain ⟨hk, hb⟩ := hends k [] rfl hc
        have : t = [] := by
          rw [hb] at ht
          simpa using ht
        subst this
        have es' : c.step cfg (.close k) = ({ c with closed := some k }, []) := by
          simp only [ConnState.step, hcl]
        rw [es']
        exact ⟨n, [], .inr ⟨rfl, by simp [hk], hk.symm⟩, by rw [hn]; simp [later]⟩
      · have es' : c.step cfg (.close k) = (c, []) := by
          cases hk : c.closed with
          | none => exact absurd (hcl.symm.trans hk) hne
          | some k => simp only [ConnState.step, hk]
        rw [es']
        exact ⟨n, [], .inr ⟨rfl, hne, hcl⟩, by rw [hn]; simp⟩
    have h1' : ∀ bs, e ≠ .recv bs := fun bs he => h1 ⟨bs, he⟩
    have h2' : ∀ k, e ≠ .close k := fun k he => h2 ⟨k, he⟩
    have hw : waits fin t c := by
      rcases ho with ⟨-, hcl, -⟩ | ⟨rfl, -, hcl⟩
      · exact .inl hcl
      · exact .inr ⟨rfl, hcl⟩
    have ho' : (∀ k, .close k ∉ es ++ [e]) ∧ (c.step cfg e).1.closed = none ∧
          arriving (es ++ [e]) ++ t = bytes ∨
        t = [] ∧ fin ≠ none ∧ (c.step cfg e).1.closed = fin := by
      rw [step_closed cfg c e h2']
      rcases ho with ⟨hc, hcl, ht⟩ | ho
      · refine .inl ⟨?_, hcl, ?_⟩
        · intro k hk
          simp only [List.mem_append, List.mem_singleton] at hk
          rcases hk with hk | hk
          · exact hc k hk
          · exact h2' k hk.symm
        · rw [arriving_open hc]
          have : arriving [e] = [] := by
            cases e with
            | recv bs => exact absurd rfl (h1' bs)
            | _ => rfl
          rw [this, List.append_nil, ht]
      · exact .inr ho
    rcases later_step cfg read respond fin t c l e hw hsm hrd hrs h1' h2' with hs | hs
    · refine ⟨n, t, ho', ?_⟩
      rw [hn, hs, List.append_nil]
    · refine ⟨n + 1, t, ho', ?_⟩
      rw [atOnce, hn]
      simp only
      rw [hs]

/-- **C127.** Two histories of a connection with the same bytes, the same end of the incoming bytes, and
the same code of the users: what happens in one of them is the beginning of what happens in the other,
however the bytes are cut and whenever everything happens. -/
theorem C127_same (es es' : List ConnEvent) (h : Given cfg read respond bytes fin es)
    (h' : Given cfg read respond bytes fin es') :
    connLog cfg es <+: connLog cfg es' ∨ connLog cfg es' <+: connLog cfg es := by
  obtain ⟨n, t, -, hn⟩ := given_atOnce es h
  obtain ⟨n', t', -, hn'⟩ := given_atOnce es' h'
  have e := congrArg Prod.snd hn
  have e' := congrArg Prod.snd hn'
  simp only at e e'
  rw [← e, ← e']
  rcases Nat.le_total n n' with hle | hle
  · exact .inl (atOnce_prefix cfg read respond bytes fin hle)
  · exact .inr (atOnce_prefix cfg read respond bytes fin hle)

/-- **C127.** When both connections are over, exactly the same has happened on them. -/
theorem C127_over (es es' : List ConnEvent) (h : Given cfg read respond bytes fin es)
    (h' : Given cfg read respond bytes fin es') (ho : ∃ e ∈ connLog cfg es, isFinal e = true)
    (ho' : ∃ e ∈ connLog cfg es', isFinal e = true) : connLog cfg es = connLog cfg es' := by
  have main : ∀ es es' : List ConnEvent, (∃ e ∈ connLog cfg es, isFinal e = true) →
      connLog cfg es <+: connLog cfg es' → connLog cfg es = connLog cfg es' := by
    intro es es' ⟨e, he, hf⟩ ⟨r, hr⟩
    obtain ⟨a, b, hab⟩ := List.append_of_mem he
    have := C41_end_is_last cfg es' a (b ++ r) e (by rw [← hr, hab]; simp) hf
    rw [← hr, (List.append_eq_nil_iff.1 this).2, List.append_nil]
  rcases C127_same es es' h h' with hp | hp
  · exact main es es' ho hp
  · exact (main es' es ho' hp).symm

/-- A failure from outside ends a connection. -/
theorem breaks_step {c : ConnState} {e : ConnEvent} (h : Breaks c e) :
    c.step cfg e = ({ c with phase := .failed }, [.warned]) := by
  cases h with
  | connect hp => simp only [ConnState.step, hp, ConnState.fail]; rfl
  | body hp => simp only [ConnState.step, hp, ConnState.fail]
  | write hp => simp only [ConnState.step, hp, ConnState.fail]; rfl

theorem supplied_cases (es : List ConnEvent) (h : Supplied cfg read respond bytes fin es) :
    Given cfg read respond bytes fin es ∨
      ∃ a, Given cfg read respond bytes fin a ∧ connLog cfg es = connLog cfg a ++ [.warned] := by
  induction es using List.reverseRecOn with
  | nil => exact .inl ⟨h, fun a e z hz => by simp at hz⟩
  | append_singleton es e ih =>
    rcases ih (supplied_left h) with hg | ⟨a, ha, hl⟩
    · by_cases hb : Breaks (ConnState.run cfg .new es).1 e
      · refine .inr ⟨es, hg, ?_⟩
        rw [connLog, conn_run_append]
        simp [ConnState.run, breaks_step hb]
      · refine .inl ⟨h, fun a e' z hz => ?_⟩
        rcases List.eq_nil_or_concat z with rfl | ⟨z', x, rfl⟩
        · obtain ⟨rfl, he⟩ := List.append_inj' hz rfl
          cases he
          exact hb
        · rw [List.concat_eq_append, ← List.cons_append, ← List.append_assoc] at hz
          obtain ⟨rfl, -⟩ := List.append_inj' hz rfl
          exact hg.smooth a e' z' rfl
    · refine .inr ⟨a, ha, ?_⟩
      rw [C41_nothing_after_end cfg es [e] ⟨.warned, by rw [hl]; simp, rfl⟩, hl]

/-- **C127.** A failure from outside (to connect, of `read_body`, of writing) only cuts this off: up to the
warning, what has happened is what would have happened without it. -/
theorem C127_cut_off (es es' : List ConnEvent) (h : Supplied cfg read respond bytes fin es)
    (h' : Given cfg read respond bytes fin es') :
    ∃ l, (connLog cfg es = l ∨ connLog cfg es = l ++ [.warned]) ∧
      (l <+: connLog cfg es' ∨ connLog cfg es' <+: l) := by
  rcases supplied_cases es h with hg | ⟨a, ha, hl⟩
  · exact ⟨_, .inl rfl, C127_same es es' hg h'⟩
  · exact ⟨_, .inr hl, C127_same a es' ha h'⟩

/-- What a connection waits for is what happens next. -/
theorem nextOn_awaited {c : ConnState} {l : List ConnEffect} {e : ConnEvent} (ha : Awaited c e)
    (hr : ∀ w rest, e = .bodyRead w rest → ∀ h s v, c.phase = .readBody h s v →
      ∀ f, Wire.body h.headers = some f → ∃ b, f c.input = .done b rest ∧ w = read s v b)
    (hh : ∀ v b, e = .handled v b → c.phase = .handling → (v, b) = respond l) :
    nextOn read respond c l = e := by
  cases ha with
  | connected hp => simp only [nextOn, hp]
  | head hp => simp only [nextOn, hp]
  | drain hp => simp only [nextOn, hp]
  | written hp => simp only [nextOn, hp]
  | handled hp =>
    simp only [nextOn, hp]
    rw [← hh _ _ rfl hp]
  | body hp hf hb =>
    obtain ⟨b', hb', hw⟩ := hr _ _ rfl _ _ _ hp _ hf
    rw [hb] at hb'
    simp only [Parsed.done.injEq, and_true] at hb'
    subst hb'
    simp only [nextOn, hp, hf, hb, hw]

/-- When a connection does not wait for anything, nothing happens. -/
theorem nextOn_idle {c : ConnState} (l : List ConnEffect) (ha : ¬ ∃ e, Awaited c e) :
    c.step cfg (nextOn read respond c l) = (c, []) := by
  obtain ⟨ph, m, inp, cl⟩ := c
  cases ph with
  | connecting => exact absurd ⟨_, .connected rfl⟩ ha
  | readHead => exact absurd ⟨_, .head rfl⟩ ha
  | refusing h p => exact absurd ⟨_, .drain rfl⟩ ha
  | handling => exact absurd ⟨.handled .unit [], .handled rfl⟩ ha
  | writing => exact absurd ⟨_, .written rfl⟩ ha
  | readBody h s v =>
    cases hf : Wire.body h.headers with
    | none => simp only [nextOn, hf, ConnState.step]
    | some f =>
      cases hb : f inp with
      | done b rest => exact absurd ⟨.bodyRead .unit rest, .body rfl hf hb⟩ ha
      | more => simp only [nextOn, hf, hb, ConnState.step]
      | bad => simp only [nextOn, hf, hb, ConnState.step]
  | _ => rfl

/-- Everything has arrived. -/
def Arrived (bytes : Bytes) (fin : Option Closed) (es : List ConnEvent) : Prop :=
  arriving es = bytes ∧ ∀ k, fin = some k → .close k ∈ es

theorem arrived_closed {es : List ConnEvent} (h : Given cfg read respond bytes fin es)
    (ha : Arrived bytes fin es) :
    (ConnState.run cfg .new es).1.closed = fin ∧ (fin = none → ∀ k, .close k ∉ es) ∧
      ∃ n, atOnce cfg read respond bytes fin n = ConnState.run cfg .new es := by
  obtain ⟨n, t, ho, hn⟩ := given_atOnce es h
  have : t = [] ∧ (ConnState.run cfg .new es).1.closed = fin ∧ (fin = none → ∀ k, .close k ∉ es) := by
    rcases ho with ⟨hc, hcl, ht⟩ | ⟨ht, hne, hcl⟩
    · rw [ha.1] at ht
      refine ⟨by simpa using ht, ?_, fun _ => hc⟩
      cases fin with
      | none => exact hcl
      | some k => exact absurd (ha.2 k rfl) (hc k)
    · exact ⟨ht, hcl, fun hf => absurd hf hne⟩
  obtain ⟨rfl, hcl, hno⟩ := this
  refine ⟨hcl, hno, n, ?_⟩
  rw [hn, later, List.append_nil, ← hcl]

theorem arrived_step {es : List ConnEvent} {e : ConnEvent}
    (h : Given cfg read respond bytes fin (es ++ [e])) (ha : Arrived bytes fin es) :
    Arrived bytes fin (es ++ [e]) ∧
    (ConnState.run cfg .new (es ++ [e]) = ConnState.run cfg .new es ∧
        ¬ Awaited (ConnState.run cfg .new es).1 e ∨
      ∀ n, atOnce cfg read respond bytes fin n = ConnState.run cfg .new es →
        atOnce cfg read respond bytes fin (n + 1) = ConnState.run cfg .new (es ++ [e])) := by
  obtain ⟨hcl, hno, -⟩ := arrived_closed (given_left h) ha
  have harr : arriving (es ++ [e]) = bytes := by
    have hp := arriving_prefix es [e]
    rw [ha.1] at hp
    exact (h.arrives.eq_of_length (Nat.le_antisymm h.arrives.length_le hp.length_le))
  refine ⟨⟨harr, fun k hk => List.mem_append_left _ (ha.2 k hk)⟩, ?_⟩
  have hstep : ConnState.run cfg .new (es ++ [e]) =
      (((ConnState.run cfg .new es).1.step cfg e).1,
        (ConnState.run cfg .new es).2 ++ ((ConnState.run cfg .new es).1.step cfg e).2) := by
    rw [conn_run_append]
    simp [ConnState.run]
  have hrd := (readsWhole_split h.reads).2.1
  have hrs : ∀ v b, e = .handled v b → (ConnState.run cfg .new es).1.phase = .handling →
      (v, b) = respond (ConnState.run cfg .new es).2 := fun v b he hp =>
    h.responds es v b [] (by rw [he]) hp
  have hsm := h.smooth es e [] rfl
  by_cases hA : Awaited (ConnState.run cfg .new es).1 e
  · right
    intro n hn
    rw [atOnce, hn, hstep]
    rw [nextOn_awaited hA hrd hrs]
  have same : (ConnState.run cfg .new es).1.step cfg e = ((ConnState.run cfg .new es).1, []) →
      ConnState.run cfg .new (es ++ [e]) = ConnState.run cfg .new es := by
    intro hs
    rw [hstep, hs, List.append_nil]
  by_cases h1 : ∃ bs, e = .recv bs
  · obtain ⟨bs, rfl⟩ := h1
    refine .inl ⟨same ?_, hA⟩
    cases hk : (ConnState.run cfg .new es).1.closed with
    | some k => simp only [ConnState.step, hk]
    | none =>
      rw [arriving_open (hno (hcl.symm.trans hk)), ha.1] at harr
      have harr : bytes ++ (bs ++ []) = bytes := harr
      have : bs = [] := by simpa using harr
      subst this
      simp only [ConnState.step, hk, List.append_nil]
      rw [← hk]
  by_cases h2 : ∃ k, e = .close k
  · obtain ⟨k, rfl⟩ := h2
    refine .inl ⟨same ?_, hA⟩
    cases hk : (ConnState.run cfg .new es).1.closed with
    | some k => simp only [ConnState.step, hk]
    | none =>
      have hf := hcl.symm.trans hk
      have := (h.ends es k [] rfl (hno hf)).1
      rw [hf] at this
      cases this
  have hl : later [] fin (ConnState.run cfg .new es).1 = (ConnState.run cfg .new es).1 := by
    rw [later, List.append_nil, ← hcl]
  rcases later_step cfg read respond fin [] (ConnState.run cfg .new es).1
    (ConnState.run cfg .new es).2 e (.inr ⟨rfl, hcl⟩) hsm hrd hrs
    (fun bs he => h1 ⟨bs, he⟩) (fun k he => h2 ⟨k, he⟩) with hs | hs
  · exact .inl ⟨same hs, hA⟩
  · right
    intro n hn
    rw [hl] at hs
    rw [atOnce, hn, hstep]
    rw [hs]
    have hl' : later [] fin ((ConnState.run cfg .new es).1.step cfg e).1 =
        ((ConnState.run cfg .new es).1.step cfg e).1 := by
      rw [later, List.append_nil, ← hcl, ← step_closed cfg _ e fun k he => h2 ⟨k, he⟩]
    rw [hl']

/-- From then on, what happens on a connection on which everything has arrived happens here too. -/
theorem arrived_reaches {σ : Nat → ConnEvent} (h : ∀ n, Given cfg read respond bytes fin (upTo σ n))
    (hf : Fair cfg σ) {N : Nat} (ha : Arrived bytes fin (upTo σ N)) (k : Nat) :
    ∃ m n, N ≤ m ∧ k ≤ n ∧ Arrived bytes fin (upTo σ m) ∧
      atOnce cfg read respond bytes fin n = ConnState.run cfg .new (upTo σ m) := by
  induction k with
  | zero =>
    obtain ⟨-, -, n, hn⟩ := arrived_closed (h N) ha
    exact ⟨N, n, Nat.le_refl _, Nat.zero_le _, ha, hn⟩
  | succ k ih =>
    obtain ⟨m, n, hm, hk, ham, hn⟩ := ih
    by_cases hA : ∃ e, Awaited (ConnState.run cfg .new (upTo σ m)).1 e
    · obtain ⟨m', hm', hw⟩ := hf m hA
      -- either the state has not changed until then, or something has happened
      have key : ∀ j, (∃ m n, N ≤ m ∧ k + 1 ≤ n ∧ Arrived bytes fin (upTo σ m) ∧
            atOnce cfg read respond bytes fin n = ConnState.run cfg .new (upTo σ m)) ∨
          (Arrived bytes fin (upTo σ (m + j)) ∧
            ConnState.run cfg .new (upTo σ (m + j)) = ConnState.run cfg .new (upTo σ m)) := by
        intro j
        induction j with
        | zero => exact .inr ⟨ham, rfl⟩
        | succ j ihj =>
          rcases ihj with hd | ⟨hj, he⟩
          · exact .inl hd
          · have hg := h (m + j + 1)
            rw [upTo_succ] at hg
            obtain ⟨hj', hs⟩ := arrived_step hg hj
            rw [← upTo_succ] at hj'
            rcases hs with ⟨hs, -⟩ | hs
            · rw [← upTo_succ] at hs
              exact .inr ⟨hj', hs.trans he⟩
            · have := hs n (hn.trans he.symm)
              rw [← upTo_succ] at this
              exact .inl ⟨m + j + 1, n + 1, by omega, by omega, hj', this⟩
      obtain ⟨j, rfl⟩ := Nat.exists_eq_add_of_le hm'
      rcases key j with hd | ⟨hj, he⟩
      · exact hd
      · rcases hw with hw | hw
        · have hg := h (m + j + 1)
          rw [upTo_succ] at hg
          obtain ⟨hj', hs⟩ := arrived_step hg hj
          rcases hs with ⟨-, hs⟩ | hs
          · exact absurd hw hs
          · have := hs n (hn.trans he.symm)
            rw [← upTo_succ] at this hj'
            exact ⟨m + j + 1, n + 1, by omega, by omega, hj', this⟩
        · rw [he] at hw
          exact absurd hA hw
    · refine ⟨m, n + 1, hm, by omega, ham, ?_⟩
      rw [atOnce, hn]
      rw [nextOn_idle _ hA, List.append_nil]

/-- **C127.** If everything arrives some time and a connection does not wait for ever for what can happen,
then everything that happens in any of these histories happens on it. -/
theorem C127_fair (es : List ConnEvent) (σ : Nat → ConnEvent) (h : Given cfg read respond bytes fin es)
    (h' : ∀ n, Given cfg read respond bytes fin (upTo σ n)) (hf : Fair cfg σ)
    (ha : ∃ n, arriving (upTo σ n) = bytes ∧ ∀ k, fin = some k → .close k ∈ upTo σ n) :
    ∃ m, connLog cfg es <+: connLog cfg (upTo σ m) := by
  obtain ⟨k, t, -, hk⟩ := given_atOnce es h
  obtain ⟨N, hN⟩ := ha
  obtain ⟨m, n', -, hle, -, hn'⟩ := arrived_reaches h' hf hN k
  refine ⟨m, ?_⟩
  have e := congrArg Prod.snd hk
  simp only at e
  rw [← e, connLog, ← hn']
  exact atOnce_prefix cfg read respond bytes fin hle

end

end Htrpc
