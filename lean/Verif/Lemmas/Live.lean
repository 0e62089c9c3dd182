/-
A connection of the server does not fail and does not get stuck, if nothing fails from outside.
-/
import Verif.Spec.Live
import Verif.Lemmas.Sync
import Verif.Props.Server

namespace Htrpc
open Spec

section
variable [FloatText] [UrlText] [JsonText] [Wire] {g : ReadBody} {junk : Bytes}

/-- A connection that is in order. -/
structure Alive (cfg : ServerCfg) (g : ReadBody) (junk : Bytes) (ms : List (ReqHead × Bytes))
    (c : ConnState) (log : List ConnEffect) (fut : Bytes) : Prop where
  noHead : NoHead junk ∨ ¬ AllAnswered ms log
  sync : Sync g junk ms c log fut
  at_ : AtConn cfg c log
  closed : c.closed ≠ none → fut = []
  smooth : c.closed ≠ some .failure
  failed : c.phase = .failed → AllAnswered ms log
  notPanicked : c.phase ≠ .panicked
  finished : c.phase = .finished → AllAnswered ms log

omit [FloatText] [UrlText] [JsonText] [Wire] in
theorem received_reads (log : List ConnEffect) : (received log).map Prod.fst = reads log := by
  fun_induction received log with
  | case1 => rfl
  | case2 h b l ih => simp [reads] at *; exact ih
  | case3 h s v w l ih => simp [reads] at *; exact ih
  | case4 h l _ _ ih => simp [reads] at *; exact ih
  | case5 e l h1 h2 h3 ih =>
    cases e with
    | read h => exact absurd rfl (h3 h)
    | _ => simpa [reads] using ih

omit [FloatText] [UrlText] [JsonText] [Wire] in
theorem same_heads {l : List (ReqHead × BodyUse)} {seen : List (ReqHead × Bytes)}
    (h : List.Forall₂ (SameRequest g) l seen) : l.map Prod.fst = seen.map Prod.fst := by
  induction h with
  | nil => rfl
  | cons h _ ih => simp only [List.map_cons, ih, h.1]

omit [Wire] in
theorem Past.counts {cfg : ServerCfg} {past : List ConnEffect} (h : Past cfg past) :
    writtenCount past = (reads past).length := by
  induction h with
  | nil => rfl
  | snoc _ hx ih =>
    rw [writtenCount_append, reads_append, List.length_append, ih]
    cases hx <;> rfl

omit [Wire] in
/-- Between two exchanges, with no request left, all are answered. -/
theorem all_answered {cfg : ServerCfg} {ms : List (ReqHead × Bytes)} {c : ConnState}
    {log : List ConnEffect} (hat : AtConn cfg c log) (hp : c.phase = .readHead)
    (h2 : List.Forall₂ (SameRequest g) (received log) ms) : AllAnswered ms log := by
  obtain ⟨past, cur, rfl, hpast, hc⟩ := hat
  rw [Current, hp] at hc
  subst hc
  rw [List.append_nil] at h2 ⊢
  have hr : reads past = ms.map Prod.fst := by rw [← received_reads, same_heads h2]
  exact ⟨hr, by rw [hpast.counts, hr, List.length_map]⟩

/-- Reading a head does not fail. -/
theorem alive_head {cfg : ServerCfg} {ms : List (ReqHead × Bytes)} {c : ConnState}
    {log : List ConnEffect} {fut : Bytes} (h : Alive cfg g junk ms c log fut)
    (hpath : ∀ m ∈ ms, ¬ Pathless cfg m.1) (hp : c.phase = .readHead) :
    (AllAnswered ms log ∧ (Wire.head c.input = .more ∨ Wire.head c.input = .bad)) ∨
    (Wire.head c.input = .more ∧ c.closed = none ∧ fut ≠ []) ∨
    ∃ hd rest f, Wire.head c.input = .done hd rest ∧ Wire.body hd.headers = some f ∧
      ((∃ p, Judged cfg hd (.refuse p)) ∨ ∃ s v, Judged cfg hd (.call s v)) := by
  obtain ⟨seen, left, h1, h2, h3⟩ := h.sync
  rw [Left, hp] at h3
  cases left with
  | nil =>
    have hn := Stream.nil_input h3
    rw [List.append_nil] at h1
    subst h1
    have hall := all_answered h.at_ hp h2
    refine .inl ⟨hall, ?_⟩
    cases hw : Wire.head c.input with
    | more => exact .inl rfl
    | bad => exact .inr rfl
    | done hd rest => exact absurd hw ((h.noHead.resolve_right fun hh => hh hall) _ _ _ ⟨fut, hn⟩)
  | cons m left =>
    obtain ⟨h', b⟩ := m
    obtain ⟨rest', hh, f, hf, -⟩ := Stream.head h3
    cases hw : Wire.head c.input with
    | bad => rw [Wire.head_bad _ _ hw] at hh; cases hh
    | more =>
      refine .inr (.inl ⟨rfl, ?_, ?_⟩)
      · cases hc : c.closed with
        | none => rfl
        | some k =>
          rw [h.closed (by rw [hc]; simp), List.append_nil, hw] at hh
          cases hh
      · rintro rfl
        rw [List.append_nil, hw] at hh
        cases hh
    | done hd rest =>
      rw [Wire.head_append _ _ _ fut hw] at hh
      cases hh
      refine .inr (.inr ⟨_, _, f, rfl, hf, ?_⟩)
      obtain ⟨d, hd, -⟩ := C37_one_verdict cfg h'
        (hpath (h', b) (by rw [h1]; simp))
      cases d with
      | refuse p => exact .inl ⟨p, hd⟩
      | call s v => exact .inr ⟨s, v, hd⟩

/-- Reading a body does not fail. -/
theorem alive_body {cfg : ServerCfg} {ms : List (ReqHead × Bytes)} {c : ConnState}
    {log : List ConnEffect} {fut : Bytes} (h : Alive cfg g junk ms c log fut) {hd : ReqHead}
    (hp : (∃ p, c.phase = .refusing hd p) ∨ ∃ s v, c.phase = .readBody hd s v) :
    ∃ f, Wire.body hd.headers = some f ∧
      ((f c.input = .more ∧ c.closed = none ∧ fut ≠ []) ∨ ∃ b rest, f c.input = .done b rest) := by
  obtain ⟨seen, left, h1, h2, h3⟩ := h.sync
  have h4 : ∃ log' done b, log = log' ++ [.read hd] ∧ seen = done ++ [(hd, b)] ∧
      List.Forall₂ (SameRequest g) (received log') done ∧
      ∃ f, Wire.body hd.headers = some f ∧ ∃ bb rest, (∀ more, f (bb ++ more) = .done b more) ∧
        c.input ++ fut = bb ++ rest ∧ Stream junk left rest := by
    rcases hp with ⟨p, hp⟩ | ⟨s, v, hp⟩
    · rw [Left, hp] at h3; exact h3
    · rw [Left, hp] at h3; exact h3
  obtain ⟨-, -, b, -, -, -, f, hf, bb, rest, hbb, hin, -⟩ := h4
  refine ⟨f, hf, ?_⟩
  have hd := hbb rest
  rw [← hin] at hd
  cases hw : f c.input with
  | bad => rw [Wire.body_bad _ _ _ _ hf hw] at hd; cases hd
  | more =>
    refine .inl ⟨rfl, ?_, ?_⟩
    · cases hc : c.closed with
      | none => rfl
      | some k =>
        rw [h.closed (by rw [hc]; simp), List.append_nil, hw] at hd
        cases hd
    · rintro rfl
      rw [List.append_nil, hw] at hd
      cases hd
  | done b rest => exact .inr ⟨b, rest, rfl⟩

omit [Wire] in
theorem problem_answered {cfg : ServerCfg} {c : ConnState} {log : List ConnEffect}
    (hat : AtConn cfg c log) {h : ReqHead} {p : Problem} (hp : c.phase = .refusing h p)
    (c' : ConnState) : ∃ r, c'.respond (ProblemResponse.ofProblem p).toVal
      (ProblemResponse.ofProblem p).bodyBytes = ({ c' with phase := .writing }, [.answer r]) := by
  obtain ⟨past, cur, rfl, hpast, hc⟩ := hat
  rw [Current, hp] at hc
  obtain ⟨-, -, -, s, hs⟩ := hc
  have hr : serResponse (ProblemResponse.ofProblem p).toVal
      (ProblemResponse.ofProblem p).bodyBytes = .ok (problemResponse s p) :=
    serResponse_problem _ rfl hs
  rw [ConnState.respond, hr]
  exact ⟨_, rfl⟩

/-- The next phase of a connection that is in order. -/
theorem alive_phase {cfg : ServerCfg} {ms : List (ReqHead × Bytes)} {c : ConnState}
    {log : List ConnEffect} {fut : Bytes} (h : Alive cfg g junk ms c log fut)
    (hpath : ∀ m ∈ ms, ¬ Pathless cfg m.1) (e : ConnEvent) (es : List ConnEvent)
    (hs : Smooth cfg c (e :: es)) :
    ((c.step cfg e).1.phase = .failed → AllAnswered ms (log ++ (c.step cfg e).2)) ∧
      (c.step cfg e).1.phase ≠ .panicked ∧
      ((c.step cfg e).1.phase = .finished → AllAnswered ms (log ++ (c.step cfg e).2)) := by
  obtain ⟨⟨hs1, hs2, hs3, hs4, hs5⟩, -⟩ := hs
  have same : (c.phase = .failed → AllAnswered ms (log ++ [])) ∧ c.phase ≠ .panicked ∧
      (c.phase = .finished → AllAnswered ms (log ++ [])) :=
    ⟨by rw [List.append_nil]; exact h.failed, h.notPanicked, by
      rw [List.append_nil]; exact h.finished⟩
  cases e with
  | recv bs => rw [ConnState.step]; split <;> exact same
  | close k => rw [ConnState.step]; split <;> exact same
  | notReady => exact same
  | connected ok =>
    rw [ConnState.step]
    split
    · cases ok with
      | true => simp
      | false => exact absurd rfl hs1
    · exact same
  | input =>
    rw [ConnState.step]
    split
    · rename_i hp
      rw [ConnState.pollHead]
      rcases alive_head h hpath hp with ⟨ha, hm | hm⟩ | ⟨hm, hc, -⟩ | ⟨hd, rest, f, hw, hf, hj⟩
      · rw [hm]
        dsimp only
        have hfin : AllAnswered ms (log ++ [.finished]) := by
          obtain ⟨h1, h2⟩ := ha
          exact ⟨by rw [reads_append, h1]; simp [reads],
            by rw [writtenCount_append, h2]; rfl⟩
        cases hc : c.closed with
        | none => exact same
        | some k =>
          cases k with
          | eof => exact ⟨by simp, by simp, fun _ => hfin⟩
          | reset => exact ⟨by simp, by simp, fun _ => hfin⟩
          | failure => exact absurd hc h.smooth
      · rw [hm]
        dsimp only
        obtain ⟨h1, h2⟩ := ha
        exact ⟨fun _ => ⟨by rw [reads_append, h1]; simp [reads, ConnState.fail],
          by rw [writtenCount_append, h2]; rfl⟩, by simp [ConnState.fail], by simp [ConnState.fail]⟩
      · rw [hm]
        dsimp only
        rw [hc]
        exact same
      · rw [hw]
        dsimp only
        rcases hj with ⟨p, hj⟩ | ⟨s, v, hj⟩
        · rw [accept_refuse hj hf]; simp
        · rw [accept_call hj hf]; simp
    · rename_i hd p hp
      rw [ConnState.pollRefusing]
      obtain ⟨f, hf, ⟨hw, hc, -⟩ | ⟨b, rest, hw⟩⟩ := alive_body h (.inl ⟨p, hp⟩)
      · simp only [hf, hw, hc]
        exact same
      · obtain ⟨r, hr⟩ := problem_answered h.at_ hp { c with input := rest }
        simp only [hf, hw, hr]
        simp
    · exact same
  | bodyRead w rest =>
    rw [ConnState.step]
    split
    · split
      · exact same
      · split
        · simp
        · exact same
    · exact same
  | bodyFailed => exact absurd rfl hs3
  | handled v body =>
    rw [ConnState.step]
    split
    · rename_i hp
      obtain ⟨r, hr⟩ := hs5 v body rfl hp
      rw [ConnState.respond, hr]
      simp
    · exact same
  | written ok =>
    rw [ConnState.step]
    split
    · cases ok with
      | true => simp
      | false => exact absurd rfl hs4
    · exact same

theorem Alive.next {cfg : ServerCfg} {ms : List (ReqHead × Bytes)} {c : ConnState}
    {log : List ConnEffect} {tail : Bytes} (e : ConnEvent) (es : List ConnEvent)
    (h : Alive cfg g junk ms c log (toCome c (e :: es) tail)) (hw : ReadsWhole cfg g c (e :: es))
    (hpath : ∀ m ∈ ms, ¬ Pathless cfg m.1) (hs : Smooth cfg c (e :: es))
    (ht : (c.closed ≠ none ∨ ∃ k, .close k ∈ e :: es) → tail = [])
    (hno : NoHead junk ∨ ¬ AllAnswered ms (log ++ (c.step cfg e).2)) :
    Alive cfg g junk ms (c.step cfg e).1 (log ++ (c.step cfg e).2) (toCome (c.step cfg e).1 es tail) ∧
      (((c.step cfg e).1.closed ≠ none ∨ ∃ k, .close k ∈ es) → tail = []) := by
  obtain ⟨h1, h2, h3⟩ := alive_phase h hpath e es hs
  have ht' : ((c.step cfg e).1.closed ≠ none ∨ ∃ k, .close k ∈ es) → tail = [] := by
    rintro (hc | ⟨k, hk⟩)
    · by_cases hk : ∃ k, e = .close k
      · obtain ⟨k, rfl⟩ := hk
        exact ht (.inr ⟨k, List.mem_cons_self⟩)
      · rw [step_closed cfg c e fun k hh => hk ⟨k, hh⟩] at hc
        exact ht (.inl hc)
    · exact ht (.inr ⟨k, List.mem_cons_of_mem _ hk⟩)
  have hcalm : Calm g junk ms c log :=
    h.noHead.imp_right fun hh ⟨hp, h2⟩ => hh (all_answered h.at_ hp h2)
  refine ⟨⟨hno, h.sync.next e es hcalm hw.1, h.at_.step e, ?_, ?_, h1, h2, h3⟩, ht'⟩
  · intro hc
    rw [toCome]
    cases hcl : (c.step cfg e).1.closed with
    | none => exact absurd hcl hc
    | some k => exact ht' (.inl hc)
  · by_cases hk : ∃ k, e = .close k
    · obtain ⟨k, rfl⟩ := hk
      rw [ConnState.step]
      split
      · intro hh
        cases hh
        exact hs.1.2.1 rfl
      · exact h.smooth
    · rw [step_closed cfg c e fun k hh => hk ⟨k, hh⟩]
      exact h.smooth

theorem Alive.run {cfg : ServerCfg} {ms : List (ReqHead × Bytes)} (es : List ConnEvent)
    {c : ConnState} {log : List ConnEffect} {tail : Bytes}
    (h : Alive cfg g junk ms c log (toCome c es tail)) (hw : ReadsWhole cfg g c es)
    (hpath : ∀ m ∈ ms, ¬ Pathless cfg m.1) (hs : Smooth cfg c es)
    (ht : (c.closed ≠ none ∨ ∃ k, .close k ∈ es) → tail = [])
    (hno : NoHead junk ∨ ∀ es', es' <+: es → ¬ AllAnswered ms (log ++ (c.run cfg es').2)) :
    Alive cfg g junk ms (c.run cfg es).1 (log ++ (c.run cfg es).2) tail := by
  induction es generalizing c log with
  | nil =>
    have : toCome c [] tail = tail := by rw [toCome]; split <;> rfl
    rw [this] at h
    show Alive cfg g junk ms c (log ++ []) tail
    rwa [List.append_nil]
  | cons e es ih =>
    obtain ⟨h1, h2⟩ := h.next e es hw hpath hs ht (hno.imp_right fun hh => by
      have := hh [e] (List.cons_prefix_cons.2 ⟨rfl, List.nil_prefix⟩)
      simpa [ConnState.run] using this)
    have := ih h1 hw.2 hs.2 h2 (hno.imp_right fun hh es' hes' => by
      have := hh (e :: es') (List.cons_prefix_cons.2 ⟨rfl, hes'⟩)
      rw [List.append_assoc]
      exact this)
    rw [List.append_assoc] at this
    exact this

/-- Requests are read until all are answered, whatever follows them. -/
theorem Sync.run_until {cfg : ServerCfg} {ms : List (ReqHead × Bytes)} (es : List ConnEvent)
    {c : ConnState} {log : List ConnEffect} {tail : Bytes} (hat : AtConn cfg c log)
    (h : Sync g junk ms c log (toCome c es tail)) (hw : ReadsWhole cfg g c es)
    (hno : ∀ a e b, es = a ++ e :: b → ¬ AllAnswered ms (log ++ (c.run cfg a).2)) :
    Sync g junk ms (c.run cfg es).1 (log ++ (c.run cfg es).2) tail := by
  induction es generalizing c log with
  | nil =>
    have : toCome c [] tail = tail := by rw [toCome]; split <;> rfl
    rw [this] at h
    exact h.same
  | cons e es ih =>
    have hcalm : Calm g junk ms c log := .inr fun ⟨hp, h2⟩ => by
      have := hno [] e es rfl
      rw [ConnState.run, List.append_nil] at this
      exact this (all_answered hat hp h2)
    have := ih (hat.step e) (h.next e es hcalm hw.1) hw.2 (by
      rintro a e' b rfl
      have := hno (e :: a) e' b rfl
      rw [List.append_assoc]
      exact this)
    rw [List.append_assoc] at this
    exact this

/-- A history in which nothing fails keeps the connection in order, until it has answered all these
requests. -/
theorem alive_until (cfg : ServerCfg) (es : List ConnEvent) (ms : List (ReqHead × Bytes)) (tail : Bytes)
    (hms : Stream junk ms (arriving es ++ tail)) (hw : ReadsWhole cfg g .new es)
    (hpath : ∀ m ∈ ms, ¬ Pathless cfg m.1) (hs : Smooth cfg .new es)
    (ht : (∃ k, .close k ∈ es) → tail = [])
    (hno : NoHead junk ∨ ∀ es', es' <+: es → ¬ AllAnswered ms (connLog cfg es')) :
    Alive cfg g junk ms (ConnState.run cfg .new es).1 (connLog cfg es) tail := by
  refine Alive.run (log := []) es ⟨?_, ⟨[], ms, rfl, .nil, hms⟩, .new cfg, fun h => absurd rfl h, ?_, ?_,
    ?_, ?_⟩ hw hpath hs (fun h => ht (h.resolve_left fun h => h rfl)) hno
  · exact hno.imp_right fun hh => hh [] List.nil_prefix
  · intro h; cases h
  · intro h; cases h
  · intro h; cases h
  · intro h; cases h

/-- A history in which nothing fails keeps the connection in order. -/
theorem alive (cfg : ServerCfg) (es : List ConnEvent) (ms : List (ReqHead × Bytes)) (tail : Bytes)
    (hj : NoHead junk) (hms : Stream junk ms (arriving es ++ tail)) (hw : ReadsWhole cfg g .new es)
    (hpath : ∀ m ∈ ms, ¬ Pathless cfg m.1) (hs : Smooth cfg .new es)
    (ht : (∃ k, .close k ∈ es) → tail = []) :
    Alive cfg g junk ms (ConnState.run cfg .new es).1 (connLog cfg es) tail :=
  alive_until cfg es ms tail hms hw hpath hs ht (.inl hj)

/-- With all bytes there, a connection that is in order has answered everything or waits for
something. -/
theorem Alive.waits {cfg : ServerCfg} {ms : List (ReqHead × Bytes)} {c : ConnState}
    {log : List ConnEffect} (h : Alive cfg g junk ms c log []) : AllAnswered ms log ∨ ∃ e, Awaited c e := by
  cases hp : c.phase with
  | connecting => exact .inr ⟨_, .connected hp⟩
  | readHead => exact .inr ⟨_, .head hp⟩
  | refusing hd p => exact .inr ⟨_, .drain hp⟩
  | readBody hd s v =>
    obtain ⟨f, hf, ⟨-, -, hne⟩ | ⟨b, rest, hw⟩⟩ := alive_body h (.inr ⟨s, v, hp⟩)
    · exact absurd rfl hne
    · exact .inr ⟨.bodyRead v rest, .body hp hf hw⟩
  | handling => exact .inr ⟨.handled .unit [], .handled hp⟩
  | writing => exact .inr ⟨_, .written hp⟩
  | finished => exact .inl (h.finished hp)
  | failed => exact .inl (h.failed hp)
  | panicked => exact absurd hp h.notPanicked

/-- What it waits for brings it forward. -/
theorem Alive.forward {cfg : ServerCfg} {ms : List (ReqHead × Bytes)} {c : ConnState}
    {log : List ConnEffect} (h : Alive cfg g junk ms c log []) (hpath : ∀ m ∈ ms, ¬ Pathless cfg m.1)
    {e : ConnEvent} (he : Awaited c e) :
    AllAnswered ms log ∨ (c.step cfg e).2 ≠ [] ∨
      (c.phase = .connecting ∧ (c.step cfg e).1.phase = .readHead) := by
  cases he with
  | connected hp => exact .inr (.inr ⟨hp, by simp [ConnState.step, hp]⟩)
  | head hp =>
    rcases alive_head h hpath hp with ⟨ha, -⟩ | ⟨-, -, hne⟩ | ⟨hd, rest, f, hw, -⟩
    · exact .inl ha
    · exact absurd rfl hne
    · refine .inr (.inl ?_)
      simp [ConnState.step, hp, ConnState.pollHead, hw]
  | drain hp =>
    obtain ⟨f, hf, ⟨-, -, hne⟩ | ⟨b, rest, hw⟩⟩ := alive_body h (.inl ⟨_, hp⟩)
    · exact absurd rfl hne
    · refine .inr (.inl ?_)
      simp [ConnState.step, hp, ConnState.pollRefusing, hf, hw]
  | @body hd s v w f b rest hp hf hw =>
    refine .inr (.inl ?_)
    have hleaves : ConnState.leaves f c.input rest = true := by
      simp only [ConnState.leaves, hw]
      simp [Wire.body_rest _ _ _ _ _ hf hw]
    simp [ConnState.step, hp, hf, hleaves]
  | handled hp => exact .inr (.inl (by simp [ConnState.step, hp]))
  | written hp => exact .inr (.inl (by simp [ConnState.step, hp]))

end

end Htrpc
