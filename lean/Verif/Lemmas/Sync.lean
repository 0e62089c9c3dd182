/-
The server reads the requests that were sent: it does not lose its place in the bytes.
-/
import Verif.Lemmas.Transcript
import Mathlib.Data.List.Forall2

set_option linter.unusedSectionVars false

namespace Htrpc
open Spec

/-- Neither a request read nor a body used. -/
def Silent (l : List ConnEffect) : Prop := ∀ e ∈ l, match e with
  | .read _ | .drained _ | .invoked _ _ _ => False
  | _ => True

/-- The list does not begin with the use of a body. -/
def NotDrained (l : List ConnEffect) : Prop :=
  (∀ b l', l ≠ .drained b :: l') ∧ ∀ s v w l', l ≠ .invoked s v w :: l'

theorem received_append (a : List ConnEffect) {b : List ConnEffect} (hb : NotDrained b) :
    received (a ++ b) = received a ++ received b := by
  fun_induction received a with
  | case1 => rfl
  | case2 h b' l ih => simp only [List.cons_append, received, ih]
  | case3 h s v w l ih => simp only [List.cons_append, received, ih]
  | case4 h l hl hl' ih =>
    rw [List.cons_append]
    cases l with
    | nil =>
      cases b with
      | nil => simp [received]
      | cons e b =>
        cases e with
        | drained x => exact absurd rfl (hb.1 x b)
        | invoked s v w => exact absurd rfl (hb.2 s v w b)
        | _ => simp [received]
    | cons e l =>
      cases e with
      | drained x => exact absurd rfl (hl x l)
      | invoked s v w => exact absurd rfl (hl' s v w l)
      | _ =>
        rw [List.cons_append, received, ← List.cons_append, ih, List.cons_append]
        · intro _ _ h; cases h
        · intro _ _ _ _ h; cases h
  | case5 e l h1 h2 h3 ih =>
    cases e with
    | read h => exact absurd rfl (h3 h)
    | _ => simp only [List.cons_append, received, ih]

theorem received_silent {l : List ConnEffect} (hl : Silent l) : received l = [] := by
  induction l with
  | nil => rfl
  | cons e l ih =>
    have he := hl e List.mem_cons_self
    have := ih fun e h => hl e (List.mem_cons_of_mem _ h)
    cases e with
    | read => exact he.elim
    | drained => exact he.elim
    | invoked => exact he.elim
    | _ => exact this

theorem Silent.notDrained {l : List ConnEffect} (hl : Silent l) : NotDrained l := by
  constructor
  · intro b l' h
    subst h
    exact hl _ List.mem_cons_self
  · intro s v w l' h
    subst h
    exact hl _ List.mem_cons_self

theorem notDrained_read (h : ReqHead) (l : List ConnEffect) : NotDrained (.read h :: l) :=
  ⟨(fun _ _ h => by cases h), (fun _ _ _ _ h => by cases h)⟩

theorem received_append_silent (a : List ConnEffect) {b : List ConnEffect} (hb : Silent b) :
    received (a ++ b) = received a := by
  rw [received_append a hb.notDrained, received_silent hb, List.append_nil]

section
variable [FloatText] [UrlText] [JsonText] [Wire] {g : ReadBody}

/-- Requests, and what follows them. -/
def Stream (junk : Bytes) (ms : List (ReqHead × Bytes)) (bytes : Bytes) : Prop :=
  ∃ a, bytes = a ++ junk ∧ Messages ms a

theorem stream_nil {ms : List (ReqHead × Bytes)} {bytes : Bytes} :
    Stream [] ms bytes ↔ Messages ms bytes := by
  constructor
  · rintro ⟨a, rfl, h⟩; rwa [List.append_nil]
  · intro h; exact ⟨bytes, by rw [List.append_nil], h⟩

theorem noHead_nil : NoHead [] := by
  intro p h rest hp
  rw [List.prefix_nil.1 hp, Wire.head_nil]
  intro h; cases h

/-- What is left of the bytes, those still to come included, depending on the phase. -/
def Left (g : ReadBody) (junk : Bytes) (c : ConnState) (log : List ConnEffect) (seen left : List (ReqHead × Bytes))
    (fut : Bytes) : Prop :=
  match c.phase with
  | .refusing h _ | .readBody h _ _ =>
    ∃ log' done b, log = log' ++ [.read h] ∧ seen = done ++ [(h, b)] ∧
      List.Forall₂ (SameRequest g) (received log') done ∧
      ∃ f, Wire.body h.headers = some f ∧ ∃ bb rest, (∀ more, f (bb ++ more) = .done b more) ∧
        c.input ++ fut = bb ++ rest ∧ Stream junk left rest
  | .failed | .panicked => True
  | .finished => Stream junk left (c.input ++ fut) ∧ Wire.head c.input = .more ∧ c.closed ≠ none
  | _ => Stream junk left (c.input ++ fut)

/-- The requests read are the first of those sent, and the others are still to be read. -/
def Sync (g : ReadBody) (junk : Bytes) (ms : List (ReqHead × Bytes)) (c : ConnState)
    (log : List ConnEffect) (fut : Bytes) : Prop :=
  ∃ seen left, ms = seen ++ left ∧ List.Forall₂ (SameRequest g) (received log) seen ∧
    Left g junk c log seen left fut

variable {junk : Bytes}

theorem Sync.silent {ms : List (ReqHead × Bytes)} {c c' : ConnState} {log effs : List ConnEffect}
    {fut fut' : Bytes} (h : Sync g junk ms c log fut) (hs : Silent effs)
    (hl : ∀ seen left, Left g junk c log seen left fut → Left g junk c' (log ++ effs) seen left fut') :
    Sync g junk ms c' (log ++ effs) fut' := by
  obtain ⟨seen, left, h1, h2, h3⟩ := h
  exact ⟨seen, left, h1, by rwa [received_append_silent _ hs], hl _ _ h3⟩

theorem Sync.fail {ms : List (ReqHead × Bytes)} {c c' : ConnState} {log : List ConnEffect}
    {fut : Bytes} (h : Sync g junk ms c log fut) : Sync g junk ms c'.fail.1 (log ++ c'.fail.2) fut :=
  h.silent (by simp [Silent, ConnState.fail]) fun _ _ _ => trivial

theorem Sync.same {ms : List (ReqHead × Bytes)} {c : ConnState} {log : List ConnEffect}
    {fut : Bytes} (h : Sync g junk ms c log fut) : Sync g junk ms c (log ++ []) fut := by
  rwa [List.append_nil]

theorem Messages.head {h : ReqHead} {b : Bytes} {ms : List (ReqHead × Bytes)} {input : Bytes}
    (hm : Messages ((h, b) :: ms) input) : ∃ rest, Wire.head input = .done h rest ∧
      ∃ f, Wire.body h.headers = some f ∧ ∃ bb rest', (∀ more, f (bb ++ more) = .done b more) ∧
        rest = bb ++ rest' ∧ Messages ms rest' := by
  generalize hms : (h, b) :: ms = ms' at hm
  cases hm with
  | nil => cases hms
  | @cons h' b' bytes ms' rest hm hrest =>
    cases hms
    obtain ⟨hb, bb, rfl, h1, f, h2, h3⟩ := hm.parts
    refine ⟨bb ++ rest, ?_, f, h2, bb, rest, h3, rfl, hrest⟩
    rw [List.append_assoc, h1]

theorem Stream.head {h : ReqHead} {b : Bytes} {ms : List (ReqHead × Bytes)} {input : Bytes}
    (hm : Stream junk ((h, b) :: ms) input) : ∃ rest, Wire.head input = .done h rest ∧
      ∃ f, Wire.body h.headers = some f ∧ ∃ bb rest', (∀ more, f (bb ++ more) = .done b more) ∧
        rest = bb ++ rest' ∧ Stream junk ms rest' := by
  obtain ⟨a, rfl, hm⟩ := hm
  obtain ⟨rest, h1, f, hf, bb, rest', hbb, rfl, h2⟩ := Messages.head hm
  exact ⟨_, Wire.head_append _ _ _ junk h1, f, hf, bb, rest' ++ junk, hbb, by simp, rest', rfl, h2⟩

theorem Messages.nil_input {input : Bytes} (hm : Messages [] input) : input = [] := by
  generalize hms : ([] : List (ReqHead × Bytes)) = ms at hm
  cases hm with
  | nil => rfl
  | cons => cases hms

theorem Stream.nil_input {input : Bytes} (hm : Stream junk [] input) : input = junk := by
  obtain ⟨a, rfl, hm⟩ := hm
  rw [Messages.nil_input hm, List.nil_append]

/-- What `accept` does to the bytes and the log. -/
theorem accept_left (cfg : ServerCfg) (c : ConnState) (h : ReqHead) :
    (∃ phase, (c.accept cfg h) = ({ c with method := h.method, phase }, []) ∧
      ((∃ p, phase = .refusing h p) ∨ ∃ s v, phase = .readBody h s v)) ∨
    (∃ c', c.accept cfg h = ConnState.fail c' ∧ c'.closed = c.closed) ∨
    ∃ c', c.accept cfg h = ConnState.panic c' ∧ c'.closed = c.closed := by
  rw [ConnState.accept]
  have hb : ∀ phase, ((∃ p, phase = .refusing h p) ∨ ∃ s v, phase = .readBody h s v) →
      (∃ phase', ConnState.withBody { c with method := h.method } h phase =
        ({ c with method := h.method, phase := phase' }, []) ∧
      ((∃ p, phase' = .refusing h p) ∨ ∃ s v, phase' = .readBody h s v)) ∨
    (∃ c', ConnState.withBody { c with method := h.method } h phase = ConnState.fail c' ∧
      c'.closed = c.closed) ∨
    ∃ c', ConnState.withBody { c with method := h.method } h phase = ConnState.panic c' ∧
      c'.closed = c.closed := by
    intro phase hp
    rw [ConnState.withBody]
    split
    · exact .inr (.inl ⟨_, rfl, rfl⟩)
    · exact .inl ⟨phase, rfl, hp⟩
  split
  · exact hb _ (.inl ⟨_, rfl⟩)
  · exact .inr (.inr ⟨_, rfl, rfl⟩)
  · split
    · exact hb _ (.inl ⟨_, rfl⟩)
    · rw [ConnState.handle]
      split
      · exact hb _ (.inl ⟨_, rfl⟩)
      · exact hb _ (.inr ⟨_, _, rfl⟩)
      · exact .inr (.inr ⟨_, rfl, rfl⟩)
    · exact .inr (.inl ⟨_, rfl, rfl⟩)
    · exact .inr (.inr ⟨_, rfl, rfl⟩)

theorem respond_left (c : ConnState) (v : Val) (body : Bytes) :
    Silent (c.respond v body).2 ∧ (c.respond v body).1.input = c.input ∧
      ((c.respond v body).1.phase = .writing ∨ (c.respond v body).1.phase = .failed ∨
        (c.respond v body).1.phase = .panicked) := by
  rw [ConnState.respond]
  split
  · exact ⟨by simp [Silent], rfl, .inl rfl⟩
  · exact ⟨by simp [Silent, ConnState.fail], rfl, .inr (.inl rfl)⟩
  · exact ⟨by simp [Silent, ConnState.panic], rfl, .inr (.inr rfl)⟩

/-- More bytes. -/
theorem Sync.recv {ms : List (ReqHead × Bytes)} {c : ConnState} {log : List ConnEffect}
    {fut : Bytes} (bs : Bytes) (hc : c.closed = none) (h : Sync g junk ms c log (bs ++ fut)) :
    Sync g junk ms { c with input := c.input ++ bs } log fut := by
  obtain ⟨seen, left, h1, h2, h3⟩ := h
  refine ⟨seen, left, h1, h2, ?_⟩
  revert h3
  simp only [Left]
  split
  · simp only [List.append_assoc]; exact id
  · simp only [List.append_assoc]; exact id
  · exact id
  · exact id
  · intro h; exact absurd hc h.2.2
  · simp only [List.append_assoc]; exact id

/-- The bytes that follow the requests are not read: there is no head in them, or requests are left. -/
def Calm (g : ReadBody) (junk : Bytes) (ms : List (ReqHead × Bytes)) (c : ConnState)
    (log : List ConnEffect) : Prop :=
  NoHead junk ∨ ¬ (c.phase = .readHead ∧ List.Forall₂ (SameRequest g) (received log) ms)

/-- Every other event. -/
theorem Sync.step {cfg : ServerCfg} {ms : List (ReqHead × Bytes)} {c : ConnState}
    {log : List ConnEffect} {fut : Bytes} (hj : Calm g junk ms c log) (h : Sync g junk ms c log fut)
    (e : ConnEvent) (hn : ∀ bs, e ≠ .recv bs)
    (hw : ∀ w rest, e = .bodyRead w rest → ∀ h s v, c.phase = .readBody h s v →
      ∀ f, Wire.body h.headers = some f → ∃ b, f c.input = .done b rest ∧ g s v b w) :
    Sync g junk ms (c.step cfg e).1 (log ++ (c.step cfg e).2) fut := by
  have hsilent : Silent [] := by simp [Silent]
  cases e with
  | recv bs => exact absurd rfl (hn bs)
  | close k =>
    rw [ConnState.step]
    split
    · refine h.silent hsilent fun seen left hl => ?_
      revert hl
      simp only [Left, List.append_nil]
      split
      · exact id
      · exact id
      · exact id
      · exact id
      · rintro ⟨h1, h2, -⟩; exact ⟨h1, h2, by simp⟩
      · exact id
    · exact h.same
  | notReady => exact h.same
  | connected ok =>
    rw [ConnState.step]
    split
    · rename_i hp
      split
      · refine h.silent hsilent fun seen left hl => ?_
        rw [Left, hp] at hl
        exact hl
      · exact h.fail
    · exact h.same
  | input =>
    rw [ConnState.step]
    split
    · rename_i hp
      rw [ConnState.pollHead]
      split
      · rename_i hd rest hhead
        obtain ⟨seen, left, h1, h2, h3⟩ := h
        rw [Left, hp] at h3
        have happ := Wire.head_append _ _ _ fut hhead
        cases left with
        | nil =>
          -- no request was sent, but one was read
          rw [List.append_nil] at h1
          exact absurd hhead ((hj.resolve_right fun hh => hh ⟨hp, h1 ▸ h2⟩) _ _ _ ⟨fut, Stream.nil_input h3⟩)
        | cons m left =>
          obtain ⟨h', b⟩ := m
          obtain ⟨rest', hh, f, hf, bb, rest'', hbb, hrest, hms⟩ := Stream.head h3
          rw [happ] at hh
          cases hh
          have hseen : ms = (seen ++ [(hd, b)]) ++ left := by rw [h1]; simp
          have hrec : List.Forall₂ (SameRequest g) (received (log ++ [.read hd]))
              (seen ++ [(hd, b)]) := by
            rw [received_append _ (notDrained_read _ _)]
            exact List.rel_append h2 (.cons ⟨rfl, trivial⟩ .nil)
          have hs : Sync g junk ms (⟨.failed, c.method, c.input, c.closed⟩) (log ++ [.read hd]) fut :=
            ⟨_, left, hseen, hrec, trivial⟩
          rcases accept_left cfg { c with input := rest } hd with
            ⟨phase, he, hph⟩ | ⟨c', he, -⟩ | ⟨c', he, -⟩
          · rw [he]
            refine ⟨_, left, hseen, hrec, ?_⟩
            have : ∃ log' done b', log ++ [.read hd] = log' ++ [.read hd] ∧
                seen ++ [(hd, b)] = done ++ [(hd, b')] ∧
                List.Forall₂ (SameRequest g) (received log') done ∧
                ∃ f, Wire.body hd.headers = some f ∧ ∃ bb rest1,
                  (∀ more, f (bb ++ more) = .done b' more) ∧
                  rest ++ fut = bb ++ rest1 ∧ Stream junk left rest1 :=
              ⟨log, seen, b, rfl, rfl, h2, f, hf, bb, rest'', hbb, hrest, hms⟩
            rcases hph with ⟨p, rfl⟩ | ⟨s, v, rfl⟩
            · exact this
            · exact this
          · rw [he]
            have := hs.fail (c' := c')
            rw [List.append_assoc] at this
            exact this
          · rw [he]
            have := hs.silent (c' := c'.panic.1) (effs := c'.panic.2) (fut' := fut)
              (by simp [Silent, ConnState.panic]) fun _ _ _ => trivial
            rw [List.append_assoc] at this
            exact this
      · exact h.fail
      · rename_i hmore
        have hfin : c.closed ≠ none →
            Sync g junk ms { c with phase := .finished } (log ++ [.finished]) fut := by
          intro hc
          refine h.silent (by simp [Silent]) fun seen left hl => ?_
          rw [Left, hp] at hl
          exact ⟨hl, hmore, hc⟩
        split
        · exact h.same
        · rename_i hc; exact hfin (by rw [hc]; simp)
        · rename_i hc; exact hfin (by rw [hc]; simp)
        · exact h.fail
    · rename_i hd p hp
      rw [ConnState.pollRefusing]
      split
      · exact h.fail
      · rename_i f hf
        split
        · rename_i b rest hb
          obtain ⟨seen, left, h1, h2, h3⟩ := h
          rw [Left, hp] at h3
          obtain ⟨log', done, b', rfl, rfl, h4, f', hf', bb, rest', hbb, hin, hms⟩ := h3
          rw [hf] at hf'; cases hf'
          have happ := Wire.body_append _ _ _ _ _ fut hf hb
          rw [hin, hbb] at happ
          cases happ
          generalize hresp : ConnState.respond { c with input := rest }
            (ProblemResponse.ofProblem p).toVal (ProblemResponse.ofProblem p).bodyBytes = x
          have hl := respond_left { c with input := rest } (ProblemResponse.ofProblem p).toVal
            (ProblemResponse.ofProblem p).bodyBytes
          rw [hresp] at hl
          obtain ⟨hl1, hl2, hl3⟩ := hl
          simp only [hresp]
          refine ⟨_, left, h1, ?_, ?_⟩
          · show List.Forall₂ _ (received (log' ++ [.read hd] ++ .drained b :: x.2)) _
            rw [show log' ++ [.read hd] ++ .drained b :: x.2 =
              log' ++ [.read hd, .drained b] ++ x.2 by simp, received_append_silent _ hl1,
              received_append _ (notDrained_read _ _)]
            exact List.rel_append h4 (.cons ⟨rfl, rfl⟩ .nil)
          · show Left g junk x.1 _ _ _ _
            rw [Left]
            rcases hl3 with hl3 | hl3 | hl3
            · rw [hl3, hl2]; exact hms
            · rw [hl3]; trivial
            · rw [hl3]; trivial
        · exact h.fail
        · split
          · exact h.same
          · exact h.fail
    · exact h.same
  | bodyRead w rest =>
    rw [ConnState.step]
    split
    · rename_i hd s v hp
      split
      · exact h.same
      · rename_i f hf
        split
        · obtain ⟨b, hb, hg⟩ := hw w rest rfl hd s v hp f hf
          obtain ⟨seen, left, h1, h2, h3⟩ := h
          rw [Left, hp] at h3
          obtain ⟨log', done, b', rfl, rfl, h4, f', hf', bb, rest', hbb, hin, hms⟩ := h3
          rw [hf] at hf'; cases hf'
          have happ := Wire.body_append _ _ _ _ _ fut hf hb
          rw [hin, hbb] at happ
          cases happ
          refine ⟨_, left, h1, ?_, hms⟩
          rw [show log' ++ [.read hd] ++ [.invoked s v w] = log' ++ [.read hd, .invoked s v w] by
            simp, received_append _ (notDrained_read _ _)]
          exact List.rel_append h4 (.cons ⟨rfl, hg⟩ .nil)
        · exact h.same
    · exact h.same
  | bodyFailed =>
    rw [ConnState.step]
    split
    · exact h.fail
    · exact h.same
  | handled v body =>
    rw [ConnState.step]
    split
    · rename_i hp
      obtain ⟨hl1, hl2, hl3⟩ := respond_left c v body
      generalize c.respond v body = x at hl1 hl2 hl3 ⊢
      refine h.silent (effs := .returned v body :: x.2) ?_ fun seen left hl => ?_
      · intro e he
        rcases List.mem_cons.1 he with rfl | he
        · trivial
        · exact hl1 e he
      · rw [Left, hp] at hl
        show Left g junk x.1 _ _ _ _
        rw [Left]
        rcases hl3 with hl3 | hl3 | hl3
        · rw [hl3, hl2]; exact hl
        · rw [hl3]; trivial
        · rw [hl3]; trivial
    · exact h.same
  | written ok =>
    rw [ConnState.step]
    split
    · rename_i hp
      split
      · refine h.silent (by simp [Silent]) fun seen left hl => ?_
        rw [Left, hp] at hl
        exact hl
      · exact h.fail
    · exact h.same

/-- The bytes still to come. -/
def toCome (c : ConnState) (es : List ConnEvent) (tail : Bytes) : Bytes :=
  match c.closed with
  | none => arriving es ++ tail
  | some _ => tail

theorem step_closed (cfg : ServerCfg) (c : ConnState) (e : ConnEvent) (hn : ∀ k, e ≠ .close k) :
    (c.step cfg e).1.closed = c.closed := by
  have hr : ∀ (c : ConnState) v body, (c.respond v body).1.closed = c.closed := by
    intro c v body
    rw [ConnState.respond]
    split <;> rfl
  cases e with
  | close k => exact absurd rfl (hn k)
  | recv bs => rw [ConnState.step]; split <;> simp_all
  | notReady => rfl
  | connected ok => rw [ConnState.step]; split <;> [split <;> rfl; rfl]
  | input =>
    rw [ConnState.step]
    split
    · rw [ConnState.pollHead]
      split
      · rename_i hd rest _
        rcases accept_left cfg { c with input := rest } hd with
          ⟨phase, he, -⟩ | ⟨c', he, hc⟩ | ⟨c', he, hc⟩
        · rw [he]
        · rw [he]; exact hc
        · rw [he]; exact hc
      · rfl
      · split <;> rfl
    · rw [ConnState.pollRefusing]
      split
      · rfl
      · split
        · exact hr _ _ _
        · rfl
        · split <;> rfl
    · rfl
  | bodyRead w rest =>
    rw [ConnState.step]
    split <;> [split <;> [rfl; split <;> rfl]; rfl]
  | bodyFailed => rw [ConnState.step]; split <;> rfl
  | handled v body =>
    rw [ConnState.step]; split
    · exact hr _ _ _
    · rfl
  | written ok => rw [ConnState.step]; split <;> [split <;> rfl; rfl]

theorem Sync.next {cfg : ServerCfg} {ms : List (ReqHead × Bytes)} (e : ConnEvent)
    (es : List ConnEvent) {c : ConnState} {log : List ConnEffect} {tail : Bytes}
    (hj : Calm g junk ms c log) (h : Sync g junk ms c log (toCome c (e :: es) tail))
    (hw : ∀ w rest, e = .bodyRead w rest → ∀ h s v, c.phase = .readBody h s v →
      ∀ f, Wire.body h.headers = some f → ∃ b, f c.input = .done b rest ∧ g s v b w) :
    Sync g junk ms (c.step cfg e).1 (log ++ (c.step cfg e).2) (toCome (c.step cfg e).1 es tail) := by
  by_cases hr : ∃ bs, e = .recv bs
  · obtain ⟨bs, rfl⟩ := hr
    cases hc : c.closed with
    | none =>
      simp only [ConnState.step, hc, List.append_nil, toCome]
      rw [toCome, hc] at h
      simp only [arriving, List.append_assoc] at h
      rw [← hc]
      exact h.recv bs hc
    | some k =>
      simp only [ConnState.step, hc, List.append_nil, toCome]
      rw [toCome, hc] at h
      exact h
  · have hs := h.step (cfg := cfg) hj e (fun bs hb => hr ⟨bs, hb⟩) hw
    by_cases hk : ∃ k, e = .close k
    · obtain ⟨k, rfl⟩ := hk
      have : toCome (c.step cfg (.close k)).1 es tail = toCome c (.close k :: es) tail := by
        cases hc : c.closed with
        | none => simp [ConnState.step, hc, toCome, arriving]
        | some k' => simp [ConnState.step, hc, toCome]
      rw [this]
      exact hs
    · have : toCome (c.step cfg e).1 es tail = toCome c (e :: es) tail := by
        rw [toCome, toCome, step_closed cfg c e fun k h => hk ⟨k, h⟩]
        cases e with
        | recv bs => exact absurd ⟨bs, rfl⟩ hr
        | close k => exact absurd ⟨k, rfl⟩ hk
        | _ => rfl
      rw [this]
      exact hs

theorem Sync.run {cfg : ServerCfg} {ms : List (ReqHead × Bytes)} (es : List ConnEvent)
    {c : ConnState} {log : List ConnEffect} {tail : Bytes} (hj : NoHead junk)
    (h : Sync g junk ms c log (toCome c es tail))
    (hw : ReadsWhole cfg g c es) :
    Sync g junk ms (c.run cfg es).1 (log ++ (c.run cfg es).2) tail := by
  induction es generalizing c log with
  | nil =>
    have : toCome c [] tail = tail := by rw [toCome]; split <;> rfl
    rw [this] at h
    exact h.same
  | cons e es ih =>
    have := ih (h.next e es (.inl hj) hw.1) hw.2
    rw [List.append_assoc] at this
    exact this

end

end Htrpc
