/-
A server reads every byte at most once (C96).
-/
import Verif.Spec.Consumed
import Verif.Props.Server
import Verif.Lemmas.Http

set_option linter.unusedSectionVars false

namespace Htrpc
open Spec

section
variable [FloatText] [UrlText] [JsonText] [Wire] [CutWire]

/-- The requests read so far end right before `rest`. -/
def EndsAt (l : List (ReqHead × BodyUse)) (used rest : Bytes) : Prop :=
  ∀ later l', Consumed l' (rest ++ later) → Consumed (l ++ l') (used ++ (rest ++ later))

/-- What has been read of the bytes that have arrived, depending on the phase. -/
def ReadSoFar (c : ConnState) (log : List ConnEffect) (got : Bytes) : Prop :=
  match c.phase with
  | .refusing h _ | .readBody h _ _ =>
    ∃ log' used hb, log = log' ++ [.read h] ∧ got = used ++ (hb ++ c.input) ∧ HeadBytes h hb ∧
      EndsAt (received log') used (hb ++ c.input)
  | .failed | .panicked | .finished => ∀ later, Consumed (received log) (got ++ later)
  | _ => ∃ used, got = used ++ c.input ∧ EndsAt (received log) used c.input

theorem EndsAt.more {l : List (ReqHead × BodyUse)} {used rest : Bytes} (h : EndsAt l used rest)
    (bs : Bytes) : EndsAt l used (rest ++ bs) := by
  intro later l' hl
  rw [List.append_assoc] at hl ⊢
  exact h _ _ hl

theorem EndsAt.all {l : List (ReqHead × BodyUse)} {used rest : Bytes} (h : EndsAt l used rest)
    (later : Bytes) : Consumed l (used ++ (rest ++ later)) := by
  simpa using h later [] .none

theorem ReadSoFar.all {c : ConnState} {log : List ConnEffect} {got : Bytes}
    (h : ReadSoFar c log got) (later : Bytes) : Consumed (received log) (got ++ later) := by
  have hp : ∀ hd, (∃ log' used hb, log = log' ++ [.read hd] ∧ got = used ++ (hb ++ c.input) ∧
      HeadBytes hd hb ∧ EndsAt (received log') used (hb ++ c.input)) →
      Consumed (received log) (got ++ later) := by
    rintro hd ⟨log', used, hb, rfl, rfl, h1, h2⟩
    rw [received_append _ (notDrained_read _ _), List.append_assoc]
    refine h2 later _ ?_
    rw [List.append_assoc]
    exact .pending h1
  have hq : (∃ used, got = used ++ c.input ∧ EndsAt (received log) used c.input) →
      Consumed (received log) (got ++ later) := by
    rintro ⟨used, rfl, h1⟩
    rw [List.append_assoc]
    exact h1.all later
  revert h
  unfold ReadSoFar
  split
  · exact hp _
  · exact hp _
  · exact fun h => h later
  · exact fun h => h later
  · exact fun h => h later
  · exact hq

theorem ReadSoFar.fail {c c' : ConnState} {log : List ConnEffect} {got : Bytes}
    (h : ReadSoFar c log got) : ReadSoFar c'.fail.1 (log ++ c'.fail.2) got := by
  intro later
  rw [received_append_silent _ (by simp [Silent, ConnState.fail])]
  exact h.all later

theorem ReadSoFar.panic {c c' : ConnState} {log : List ConnEffect} {got : Bytes}
    (h : ReadSoFar c log got) : ReadSoFar c'.panic.1 (log ++ c'.panic.2) got := by
  intro later
  rw [received_append_silent _ (by simp [Silent, ConnState.panic])]
  exact h.all later

theorem ReadSoFar.same {c : ConnState} {log : List ConnEffect} {got : Bytes}
    (h : ReadSoFar c log got) : ReadSoFar c (log ++ []) got := by
  rwa [List.append_nil]

/-- Phases between two requests. -/
def between (c : ConnState) : Prop :=
  c.phase = .connecting ∨ c.phase = .readHead ∨ c.phase = .handling ∨ c.phase = .writing

theorem readSoFar_between {c : ConnState} {log : List ConnEffect} {got : Bytes} (hc : between c) :
    ReadSoFar c log got ↔ ∃ used, got = used ++ c.input ∧ EndsAt (received log) used c.input := by
  unfold ReadSoFar
  rcases hc with h | h | h | h <;> rw [h]

theorem ReadSoFar.silent {c c' : ConnState} {log effs : List ConnEffect} {got : Bytes}
    (h : ReadSoFar c log got) (hs : Silent effs) (hc : between c) (hc' : between c')
    (hi : c'.input = c.input) : ReadSoFar c' (log ++ effs) got := by
  rw [readSoFar_between hc] at h
  rw [readSoFar_between hc', received_append_silent _ hs, hi]
  exact h

theorem ReadSoFar.respond {c : ConnState} {log : List ConnEffect} {got : Bytes}
    (h : ReadSoFar c log got) (hc : between c) (v : Val) (body : Bytes) :
    ReadSoFar (c.respond v body).1 (log ++ (c.respond v body).2) got := by
  rw [ConnState.respond]
  split
  · exact h.silent (by simp [Silent]) hc (.inr (.inr (.inr rfl))) rfl
  · exact h.fail
  · exact h.panic

/-- A body that is not complete yet ends later. -/
theorem body_more {hs : List Header} {f : Bytes → Parsed Bytes} {bs more b after : Bytes}
    (hf : Wire.body hs = some f) (h : f bs = .more) (h' : f (bs ++ more) = .done b after) :
    after <:+ more := by
  obtain ⟨bb, h1, h2⟩ := CutWire.body_cut _ _ _ _ _ hf h'
  rcases List.append_eq_append_iff.1 h1 with ⟨x, h3, h4⟩ | ⟨x, h3, h4⟩
  · exact ⟨x, h4.symm⟩
  · rw [h3, h2] at h
    cases h

theorem ReadSoFar.step {cfg : ServerCfg} {c : ConnState} {log : List ConnEffect} {got : Bytes}
    (h : ReadSoFar c log got) (e : ConnEvent) (hn : ∀ bs, e ≠ .recv bs) :
    ReadSoFar (c.step cfg e).1 (log ++ (c.step cfg e).2) got := by
  cases e with
  | recv bs => exact absurd rfl (hn bs)
  | close k =>
    rw [ConnState.step]
    split
    · rw [List.append_nil]; exact h
    · exact h.same
  | notReady => exact h.same
  | connected ok =>
    rw [ConnState.step]
    split
    · rename_i hp
      split
      · exact h.silent (by simp [Silent]) (.inl hp) (.inr (.inl rfl)) rfl
      · exact h.fail
    · exact h.same
  | input =>
    rw [ConnState.step]
    split
    · rename_i hp
      rw [ConnState.pollHead]
      split
      · rename_i hd rest hhead
        rw [readSoFar_between (.inr (.inl hp))] at h
        obtain ⟨used, rfl, h2⟩ := h
        obtain ⟨hb, h3, h4⟩ := CutWire.head_cut _ _ _ hhead
        have hs : ReadSoFar ⟨.refusing hd (ConnState.badRequest cfg hd), c.method, rest, c.closed⟩ (log ++ [.read hd])
            (used ++ c.input) :=
          ⟨log, used, hb, rfl, by rw [h3], h4, by rw [← h3]; exact h2⟩
        rcases accept_left cfg { c with input := rest } hd with
          ⟨phase, he, hph⟩ | ⟨c', he, -⟩ | ⟨c', he, -⟩
        · rw [he]
          rcases hph with ⟨p, rfl⟩ | ⟨s, v, rfl⟩
          · exact hs
          · exact hs
        · rw [he]
          have := hs.fail (c' := c')
          rw [List.append_assoc] at this
          exact this
        · rw [he]
          have := hs.panic (c' := c')
          rw [List.append_assoc] at this
          exact this
      · exact h.fail
      · have hfin : ReadSoFar { c with phase := .finished } (log ++ [.finished]) got := by
          intro later
          rw [received_append_silent _ (by simp [Silent])]
          exact h.all later
        split
        · exact h.same
        · exact hfin
        · exact hfin
        · exact h.fail
    · rename_i hd p hp
      rw [ConnState.pollRefusing]
      split
      · exact h.fail
      · rename_i f hf
        split
        · rename_i b rest hb
          rw [ReadSoFar, hp] at h
          obtain ⟨log', used, hbs, rfl, rfl, h1, h2⟩ := h
          obtain ⟨bb, h3, h4⟩ := CutWire.body_cut _ _ _ _ _ hf hb
          have hs : ReadSoFar ⟨.handling, c.method, rest, c.closed⟩
              (log' ++ [.read hd, .drained b]) (used ++ (hbs ++ c.input)) := by
            refine ⟨used ++ (hbs ++ bb), by simp [h3], ?_⟩
            intro later l' hl
            rw [received_append _ (notDrained_read _ _), List.append_assoc, List.append_assoc]
            have := h2 later ((hd, .dropped b) :: l') (by
              rw [h3]
              simp only [List.append_assoc]
              exact .dropped h1 hf h4 hl)
            rw [h3] at this
            simpa [received] using this
          have := hs.respond (.inr (.inr (.inl rfl))) (ProblemResponse.ofProblem p).toVal
            (ProblemResponse.ofProblem p).bodyBytes
          have he : ∀ v body, ConnState.respond { c with input := rest } v body =
              ConnState.respond ⟨.handling, c.method, rest, c.closed⟩ v body := by
            intro v body
            simp only [ConnState.respond, ConnState.fail, ConnState.panic]
          rw [← he] at this
          simp only [List.append_assoc, List.cons_append, List.nil_append] at this ⊢
          exact this
        · exact h.fail
        · split
          · exact h.same
          · exact h.fail
    · exact h.same
  | bodyRead w rest =>
    rw [ConnState.step]
    split
    · rename_i hd s v hp
      split
      · exact h.same
      · rename_i f hf
        split
        · rename_i hl
          rw [ReadSoFar, hp] at h
          obtain ⟨log', used, hbs, rfl, rfl, h1, h2⟩ := h
          rw [ConnState.leaves, Bool.and_eq_true, List.isSuffixOf_iff_suffix] at hl
          obtain ⟨⟨bb, h3⟩, hl⟩ := hl
          have h3 := h3.symm
          refine ⟨used ++ (hbs ++ bb), by simp [h3], ?_⟩
          intro later l' hc
          dsimp only at hc ⊢
          rw [List.append_assoc, show [ConnEffect.read hd] ++ [.invoked s v w] =
            .read hd :: [.invoked s v w] from rfl, received_append _ (notDrained_read _ _),
            List.append_assoc, List.append_assoc]
          have := h2 later ((hd, .handed s v w) :: l') (by
            rw [h3]
            simp only [List.append_assoc]
            refine .handed h1 hf (fun b after hb => ?_) hc
            rw [← List.append_assoc, ← h3] at hb
            cases hi : f c.input with
            | more => exact (body_more hf hi hb).trans (List.suffix_append _ _)
            | bad => rw [Wire.body_bad _ _ _ _ hf hi] at hb; cases hb
            | done b' after' =>
              rw [hi] at hl
              rw [Wire.body_append _ _ _ _ _ later hf hi] at hb
              cases hb
              obtain ⟨x, hx⟩ := List.isSuffixOf_iff_suffix.1 hl
              exact ⟨x, by rw [← List.append_assoc, hx]⟩)
          rw [h3] at this
          simpa [received] using this
        · exact h.same
    · exact h.same
  | bodyFailed =>
    rw [ConnState.step]
    split
    · exact h.fail
    · exact h.same
  | handled v body =>
    rw [ConnState.step]
    split
    · rename_i hp
      have h' : ReadSoFar c (log ++ [.returned v body]) got :=
        h.silent (by simp [Silent]) (.inr (.inr (.inl hp))) (.inr (.inr (.inl hp))) rfl
      have := h'.respond (.inr (.inr (.inl hp))) v body
      rw [List.append_assoc] at this
      exact this
    · exact h.same
  | written ok =>
    rw [ConnState.step]
    split
    · rename_i hp
      split
      · exact h.silent (by simp [Silent]) (.inr (.inr (.inr hp))) (.inr (.inl rfl)) rfl
      · exact h.fail
    · exact h.same

theorem ReadSoFar.recv {c : ConnState} {log : List ConnEffect} {got : Bytes}
    (h : ReadSoFar c log got) (bs : Bytes) :
    ReadSoFar { c with input := c.input ++ bs } log (got ++ bs) := by
  have hp : ∀ hd, (∃ log' used hb, log = log' ++ [.read hd] ∧ got = used ++ (hb ++ c.input) ∧
      HeadBytes hd hb ∧ EndsAt (received log') used (hb ++ c.input)) →
      ∃ log' used hb, log = log' ++ [.read hd] ∧ got ++ bs = used ++ (hb ++ (c.input ++ bs)) ∧
      HeadBytes hd hb ∧ EndsAt (received log') used (hb ++ (c.input ++ bs)) := by
    rintro hd ⟨log', used, hb, rfl, rfl, h1, h2⟩
    exact ⟨log', used, hb, rfl, by simp, h1, by rw [← List.append_assoc]; exact h2.more bs⟩
  have hq : (∃ used, got = used ++ c.input ∧ EndsAt (received log) used c.input) →
      ∃ used, got ++ bs = used ++ (c.input ++ bs) ∧
        EndsAt (received log) used (c.input ++ bs) := by
    rintro ⟨used, rfl, h1⟩
    exact ⟨used, by simp, h1.more bs⟩
  revert h
  simp only [ReadSoFar]
  split
  · exact hp _
  · exact hp _
  · exact fun h later => by rw [List.append_assoc]; exact h _
  · exact fun h later => by rw [List.append_assoc]; exact h _
  · exact fun h later => by rw [List.append_assoc]; exact h _
  · exact hq

/-- What arrives when this much of the connection has happened. -/
theorem readSoFar_run {cfg : ServerCfg} (es : List ConnEvent) {c : ConnState}
    {log : List ConnEffect} {got : Bytes} (h : ReadSoFar c log got) :
    ReadSoFar (c.run cfg es).1 (log ++ (c.run cfg es).2) (got ++ toCome c es []) := by
  induction es generalizing c log got with
  | nil =>
    have : toCome c [] [] = [] := by rw [toCome]; split <;> rfl
    rw [this, List.append_nil]
    exact h.same
  | cons e es ih =>
    by_cases hr : ∃ bs, e = .recv bs
    · obtain ⟨bs, rfl⟩ := hr
      cases hc : c.closed with
      | none =>
        have h1 : c.step cfg (.recv bs) = ({ c with input := c.input ++ bs }, []) := by
          simp only [ConnState.step, hc]
        have := ih (h.recv bs)
        rw [show toCome c (.recv bs :: es) [] = bs ++ toCome { c with input := c.input ++ bs } es [] by
          simp [toCome, hc, arriving]]
        simp only [ConnState.run, h1, List.nil_append]
        rw [← List.append_assoc]
        exact this
      | some k =>
        have h1 : c.step cfg (.recv bs) = (c, []) := by
          simp only [ConnState.step, hc]
        have := ih h
        rw [show toCome c (.recv bs :: es) [] = toCome c es [] by simp [toCome, hc]]
        simp only [ConnState.run, h1, List.nil_append]
        exact this
    · have h1 := h.step (cfg := cfg) e fun bs hb => hr ⟨bs, hb⟩
      have := ih h1
      have hcome : toCome (c.step cfg e).1 es [] = toCome c (e :: es) [] := by
        by_cases hk : ∃ k, e = .close k
        · obtain ⟨k, rfl⟩ := hk
          cases hc : c.closed with
          | none => simp [ConnState.step, hc, toCome, arriving]
          | some k' => simp [ConnState.step, hc, toCome]
        · rw [toCome, toCome, step_closed cfg c e fun k h => hk ⟨k, h⟩]
          cases e with
          | recv bs => exact absurd ⟨bs, rfl⟩ hr
          | close k => exact absurd ⟨k, rfl⟩ hk
          | _ => rfl
      rw [hcome, List.append_assoc] at this
      exact this

/-- **C96.** Whatever a peer sends, and whatever `read_body` of the procedures leaves unread, the
requests that a server reads lie one behind another in the bytes that have arrived: no byte belongs to
two of them, and none is made up. -/
theorem C96_read_once (cfg : ServerCfg) (es : List ConnEvent) :
    Consumed (received (connLog cfg es)) (arriving es) := by
  have h0 : ReadSoFar (.new : ConnState) [] [] :=
    ⟨[], rfl, fun later l' hl => by simpa [received, ConnState.new] using hl⟩
  have := (readSoFar_run (cfg := cfg) es h0).all []
  simpa [toCome, ConnState.new, connLog] using this

/-- **C96.** So a server reads at most as many requests, and calls handlers at most as often, as bytes
have arrived. -/
theorem C96_bounded (cfg : ServerCfg) (es : List ConnEvent) :
    (received (connLog cfg es)).length ≤ (arriving es).length := by
  have h : ∀ {l bytes}, Consumed l bytes → l.length ≤ bytes.length := by
    intro l bytes h
    have hne : ∀ {h hb}, HeadBytes h hb → 1 ≤ hb.length := by
      intro h hb hh
      cases hb with
      | nil =>
        have := hh []
        rw [List.nil_append, Wire.head_nil] at this
        cases this
      | cons a hb => simp
    induction h with
    | none => simp
    | pending h => have := hne h; simp; omega
    | dropped h _ _ _ ih => have := hne h; simp; omega
    | handed h _ _ _ ih => have := hne h; simp; omega
  exact h (C96_read_once cfg es)

omit [CutWire] in
/-- **C96**, the converse, and the counterexample to `C43` without its hypothesis on `read_body`: if
a procedure does not read the body, then this is read as the next request, whatever is in it.  Here one
request is sent, and two are read. -/
theorem C96_unread (cfg : ServerCfg) (h h' : ReqHead) (s : Service) (v w resp : Val) (r : Response)
    (hb bb hb' b x : Bytes) (f : Bytes → Parsed Bytes) (hw : wanted cfg h = some (s, v))
    (h1 : HeadBytes h hb) (h2 : Wire.body h.headers = some f)
    (h3 : ∀ more, f (bb ++ more) = .done b more) (h4 : HeadBytes h' hb') (h5 : bb = hb' ++ x)
    (hr : serResponse resp [] = .ok r) :
    ∃ es, Messages [(h, b)] (hb ++ bb) ∧ arriving es = hb ++ bb ∧
      received (connLog cfg es) = [(h, .handed s v w), (h', .pending)] := by
  refine ⟨[.connected true, .recv (hb ++ bb)] ++ ([.input, .bodyRead w bb, .handled resp [],
    .written true] ++ [.input]), ?_, by simp [arriving], ?_⟩
  · have := Messages.cons ⟨hb, bb, rfl, h1, f, h2, h3⟩ .nil
    rwa [List.append_nil] at this
  · have h0 : ConnState.run cfg .new [.connected true, .recv (hb ++ bb)] =
        (⟨.readHead, ConnState.new.method, hb ++ bb, none⟩, []) := rfl
    have hl : ConnState.leaves f bb bb = true := by
      have := h3 []
      rw [List.append_nil] at this
      simp [ConnState.leaves, this]
    have hc := accept_call ((C38_wanted_iff cfg h s v).1 hw) h2
    have hm : ConnState.run cfg ⟨.readHead, ConnState.new.method, hb ++ bb, none⟩
        [.input, .bodyRead w bb, .handled resp [], .written true] =
        (⟨.readHead, h.method, bb, none⟩, [.read h, .invoked s v w, .returned resp [],
          .answer (if h.method = .head then { r with body := [] } else r), .written]) := by
      simp only [ConnState.run, ConnState.step, ConnState.pollHead, h1 bb, hc, h2, hl, if_true,
        ConnState.respond, hr]
      rfl
    have he : ∃ l, (ConnState.run cfg ⟨.readHead, h.method, bb, none⟩ [.input]).2 =
        .read h' :: l ∧ Silent l := by
      simp only [ConnState.run, ConnState.step, ConnState.pollHead, h5, h4 x]
      rcases accept_left cfg ⟨.readHead, h.method, x, none⟩ h' with
        ⟨phase, he, -⟩ | ⟨c', he, -⟩ | ⟨c', he, -⟩
      · rw [he]; exact ⟨[], rfl, by simp [Silent]⟩
      · rw [he]; exact ⟨[.warned], rfl, by simp [Silent]⟩
      · rw [he]; exact ⟨[.panicked], rfl, by simp [Silent]⟩
    obtain ⟨l, he, hl⟩ := he
    have hlog : connLog cfg ([.connected true, .recv (hb ++ bb)] ++ ([.input, .bodyRead w bb,
        .handled resp [], .written true] ++ [.input])) = [.read h, .invoked s v w, .returned resp [],
          .answer (if h.method = .head then { r with body := [] } else r), .written] ++
          .read h' :: l := by
      rw [connLog, conn_run_append, h0]
      simp only [conn_run_append, hm, he]
      rfl
    rw [hlog, received_append _ (notDrained_read _ _),
      show ConnEffect.read h' :: l = [.read h'] ++ l from rfl, received_append_silent _ hl]
    rfl

omit [CutWire] in
/-- **C96.** Nor does a handler wait for the body: if `read_body` is content with less than has arrived,
then the handler is called with what it has made of that, although the rest of the body is still to
come. -/
theorem C96_early (cfg : ServerCfg) (h : ReqHead) (s : Service) (v w : Val) (hb got left : Bytes)
    (f : Bytes → Parsed Bytes) (hw : wanted cfg h = some (s, v)) (h1 : HeadBytes h hb)
    (h2 : Wire.body h.headers = some f) (h3 : f (got ++ left) = .more) :
    received (connLog cfg [.connected true, .recv (hb ++ (got ++ left)), .input, .bodyRead w left]) =
      [(h, .handed s v w)] := by
  have hl : ConnState.leaves f (got ++ left) left = true := by
    simp [ConnState.leaves, h3]
  have hc := accept_call ((C38_wanted_iff cfg h s v).1 hw) h2
  have : connLog cfg [.connected true, .recv (hb ++ (got ++ left)), .input, .bodyRead w left] =
      [.read h, .invoked s v w] := by
    simp only [connLog, ConnState.run, ConnState.step, ConnState.new, List.nil_append, if_true,
      ConnState.pollHead, h1 (got ++ left), hc, h2, hl]
    rfl
  rw [this]
  rfl

end

/-! ### HTTP -/

namespace Http

theorem readLines_cut {cur bs : Bytes} {ls : List Bytes} {rest : Bytes}
    (h : readLines cur bs = some (ls, rest)) :
    ∃ x, bs = x ++ rest ∧ ∀ more, readLines cur (x ++ more) = some (ls, more) := by
  fun_induction readLines cur bs generalizing ls rest with
  | case1 => cases h
  | case2 => cases h
  | case3 a b r hab =>
    obtain ⟨rfl, rfl⟩ := hab
    cases h
    exact ⟨[13, 10], rfl, fun more => by simp [readLines]⟩
  | case4 cur a b r hab hc ih =>
    obtain ⟨rfl, rfl⟩ := hab
    obtain ⟨x, hx, hy⟩ := Option.map_eq_some_iff.1 h
    cases hy
    obtain ⟨y, rfl, h2⟩ := ih hx
    exact ⟨13 :: 10 :: y, rfl, fun more => by simp [readLines, hc, h2]⟩
  | case5 cur a b r hab ih =>
    obtain ⟨y, h1, h2⟩ := ih h
    cases y with
    | nil =>
      have := h2 []
      simp [readLines] at this
    | cons b' y =>
      simp only [List.cons_append, List.cons.injEq] at h1
      obtain ⟨rfl, rfl⟩ := h1
      refine ⟨a :: b :: y, rfl, fun more => ?_⟩
      have := h2 more
      simp only [List.cons_append, readLines, if_neg hab] at this ⊢
      exact this

/-- HTTP messages are such bytes. -/
theorem cutWire [MethodNames] : letI := httpWire; CutWire := by
  let := httpWire
  refine ⟨fun bs h rest hd => ?_, fun hs f bs b rest hf hb => ?_⟩
  · show ∃ hb, bs = hb ++ rest ∧ ∀ more, readHead (hb ++ more) = .done h more
    change readHead bs = .done h rest at hd
    unfold readHead at hd
    split at hd
    · cases hd
    · cases hd
    · rename_i l ls r hr
      obtain ⟨x, rfl, h2⟩ := readLines_cut hr
      split at hd
      · rename_i m t hs h3 h4
        cases hd
        refine ⟨x, rfl, fun more => ?_⟩
        rw [readHead, h2]
        simp only [h3, h4]
      · cases hd
  · change readBody hs = some f at hf
    unfold readBody at hf
    split at hf
    · cases hf
    · split at hf
      · cases hf
        cases hb
        exact ⟨[], rfl, fun more => rfl⟩
      · obtain ⟨n, -, rfl⟩ := Option.map_eq_some_iff.1 hf
        simp only at hb ⊢
        split at hb
        · rename_i hk
          simp only [Parsed.done.injEq] at hb
          obtain ⟨rfl, rfl⟩ := hb
          refine ⟨bs.take n, (List.take_append_drop n bs).symm, fun more => ?_⟩
          have hlen : (bs.take n).length = n := by simp; omega
          rw [if_pos (by simp; omega)]
          congr 1
          · exact List.take_left' hlen
          · exact List.drop_left' hlen
        · cases hb

end Http

end Htrpc
