/-
C104: what is not a request ends the connection.
-/
import Verif.Spec.Malformed
import Verif.Props.Interop

namespace Htrpc
open Spec Http

section
variable [FloatText] [UrlText] [JsonText] [Wire] {g : ReadBody}

/-- **C104.** If bytes follow in which no request is found, then only the requests before them are read,
answered and given to handlers, whatever follows. -/
theorem C104_unread (cfg : ServerCfg) (es : List ConnEvent) (ms : List (ReqHead × Bytes))
    (bytes junk : Bytes) (hms : Messages ms bytes) (hj : NoHead junk)
    (harr : arriving es <+: bytes ++ junk) (hw : ReadsWhole cfg g .new es) :
    ∃ seen, seen <+: ms ∧ List.Forall₂ (SameRequest g) (received (connLog cfg es)) seen ∧
      (answers (connLog cfg es)).length ≤ seen.length := by
  obtain ⟨tail, htail⟩ := harr
  have h0 : Sync g junk ms .new [] (toCome .new es tail) := by
    refine ⟨[], ms, rfl, .nil, ?_⟩
    show Stream junk ms ([] ++ toCome .new es tail)
    rw [show toCome .new es tail = arriving es ++ tail from rfl, htail]
    exact ⟨bytes, rfl, hms⟩
  obtain ⟨seen, left, h1, h2, -⟩ := h0.run es hj hw
  refine ⟨seen, ⟨left, h1.symm⟩, h2, ?_⟩
  have h3 := (C39_one_at_a_time cfg es _ (List.prefix_refl _)).2.1
  have h4 : (reads (connLog cfg es)).length = seen.length := by
    rw [← received_reads, List.length_map]
    exact h2.length_eq
  omega

omit [Wire] in
/-- A connection that has answered everything and is over, or waits. -/
theorem answered_phase {cfg : ServerCfg} {c : ConnState} {log : List ConnEffect}
    (hat : AtConn cfg c log) (hr : (reads log).length = writtenCount log) (hp : c.phase ≠ .panicked) :
    c.phase = .connecting ∨ c.phase = .readHead ∨ c.phase = .finished ∨
      (c.phase = .failed ∧ ∃ l, log = l ++ [.warned] ∧ reads l = reads log ∧
        writtenCount l = writtenCount log) := by
  obtain ⟨past, cur, rfl, hpast, hc⟩ := hat
  rw [reads_append, writtenCount_append, List.length_append, hpast.counts] at hr
  have hst : ∀ {h l}, Started cfg h l → (reads l).length = 1 ∧ writtenCount l = 0 := by
    intro h l hx
    cases hx <;> simp [reads, writtenCount]
  rw [Current] at hc
  split at hc
  · rename_i hp; exact .inl hp
  · rename_i hp; exact .inr (.inl hp)
  · obtain ⟨rfl, -⟩ := hc; simp [reads, writtenCount] at hr
  · obtain ⟨rfl, -⟩ := hc; simp [reads, writtenCount] at hr
  · obtain ⟨h, s, v, w, rfl, -⟩ := hc; simp [reads, writtenCount] at hr
  · obtain ⟨h, hs, -⟩ := hc
    have := hst hs
    omega
  · rename_i hp; exact .inr (.inr (.inl hp))
  · rename_i hf
    rcases hc with rfl | ⟨h, l, hs, rfl⟩
    · refine .inr (.inr (.inr ⟨hf, past, rfl, ?_, ?_⟩))
      · rw [reads_append]; simp [reads]
      · rw [writtenCount_append]; rfl
    · have := hst hs
      rw [reads_append, writtenCount_append, List.length_append,
        show reads [ConnEffect.warned] = [] from rfl,
        show writtenCount [ConnEffect.warned] = 0 from rfl, List.length_nil] at hr
      omega
  · rename_i hf; exact absurd hf hp

omit [FloatText] [UrlText] [JsonText] in
/-- Bytes that are not understood contain no head. -/
theorem noHead_bad {junk : Bytes} (h : Wire.head junk = .bad) : NoHead junk := by
  rintro p hd rest ⟨x, rfl⟩ hp
  rw [Wire.head_append _ _ _ x hp] at h
  cases h

/-- **C104.** If these bytes are not understood, the connection ends with a warning, after all requests
before them have been answered, whatever follows. -/
theorem C104_ends (cfg : ServerCfg) (σ : Nat → ConnEvent) (ms : List (ReqHead × Bytes))
    (bytes junk : Bytes) (hms : Messages ms bytes) (hbad : Wire.head junk = .bad)
    (hall : ∃ n, bytes ++ junk <+: arriving (upTo σ n)) (hw : ∀ n, ReadsWhole cfg g .new (upTo σ n))
    (hs : ∀ n, Smooth cfg .new (upTo σ n)) (hpath : ∀ m ∈ ms, ¬ Pathless cfg m.1)
    (hfair : Fair cfg σ) :
    ∃ n l, connLog cfg (upTo σ n) = l ++ [.warned] ∧ AllAnswered ms l := by
  obtain ⟨n0, hn0, -⟩ := C84_whatever_follows (g := g) cfg σ ms _ hms
    (hall.imp fun _ h => (List.prefix_append _ _).trans h) hw hs hpath hfair
  obtain ⟨N, hN⟩ := hall
  have halive : ∀ n, N ≤ n → ∃ junk', Wire.head junk' = .bad ∧
      Alive cfg g junk' ms (ConnState.run cfg .new (upTo σ n)).1 (connLog cfg (upTo σ n)) [] := by
    intro n hn
    obtain ⟨b, hb⟩ := upTo_le σ hn
    obtain ⟨x, hx⟩ := hN.trans (hb ▸ arriving_prefix (upTo σ N) b)
    have hbad' := Wire.head_bad _ x hbad
    refine ⟨junk ++ x, hbad', alive cfg _ ms [] (noHead_bad hbad') ?_ (hw n) hpath (hs n) fun _ => rfl⟩
    rw [← hx, List.append_nil, List.append_assoc]
    exact ⟨bytes, rfl, hms⟩
  -- from now on everything is answered
  have hans : ∀ n, N ≤ n → n0 ≤ n → AllAnswered ms (connLog cfg (upTo σ n)) := by
    intro n hn hn'
    obtain ⟨b, hb⟩ := upTo_le σ hn'
    have hlog : ∃ l, connLog cfg (upTo σ n) = connLog cfg (upTo σ n0) ++ l := by
      rw [hb, connLog, conn_run_append]
      exact ⟨_, rfl⟩
    obtain ⟨l, hl⟩ := hlog
    obtain ⟨_, -, hal⟩ := halive n hn
    obtain ⟨seen, left, h1, h2, -⟩ := hal.sync
    have h3 := same_heads h2
    rw [received_reads] at h3
    obtain ⟨h4, h5⟩ := hn0
    have h6 : seen.length = ms.length := by
      have e1 : ms.length ≤ seen.length := by
        have := congrArg List.length h3
        rw [hl, reads_append, h4] at this
        simp at this
        omega
      have := congrArg List.length h1
      rw [List.length_append] at this
      omega
    have h7 : left = [] := by
      have := congrArg List.length h1
      rw [List.length_append] at this
      exact List.length_eq_zero_iff.1 (by omega)
    rw [h7, List.append_nil] at h1
    rw [← h1] at h3
    refine ⟨h3, ?_⟩
    have h8 := C39_one_at_a_time cfg (upTo σ n) _ (List.prefix_refl _)
    rw [h3, List.length_map] at h8
    have h9 : ms.length ≤ writtenCount (connLog cfg (upTo σ n)) := by
      rw [hl, writtenCount_append, h5]
      omega
    omega
  refine Classical.byContradiction fun hno => ?_
  have hinput : ∀ n, N ≤ n → n0 ≤ n →
      (ConnState.run cfg .new (upTo σ n)).1.phase = .connecting ∨
      ((ConnState.run cfg .new (upTo σ n)).1.phase = .readHead ∧
        Wire.head (ConnState.run cfg .new (upTo σ n)).1.input = .bad) := by
    intro n hn hn'
    have ha := hans n hn hn'
    obtain ⟨junk', hbad', hal⟩ := halive n hn
    obtain ⟨seen, left, h1, h2, h3⟩ := hal.sync
    have h7 : left = [] := by
      have := congrArg List.length (same_heads h2)
      rw [received_reads, ha.1, List.length_map, List.length_map, h1, List.length_append] at this
      exact List.length_eq_zero_iff.1 (by omega)
    subst h7
    rcases answered_phase hal.at_ (by rw [ha.1, ha.2, List.length_map]) hal.notPanicked with
      hp | hp | hp | ⟨-, l, h4, h5, h6⟩
    · exact .inl hp
    · rw [Left, hp] at h3
      have := Stream.nil_input h3
      rw [List.append_nil] at this
      exact .inr ⟨hp, this ▸ hbad'⟩
    · rw [Left, hp] at h3
      have := Stream.nil_input h3.1
      rw [List.append_nil] at this
      rw [this, hbad'] at h3
      cases h3.2.1
    · exact absurd ⟨n, l, h4, by rw [h5, ha.1], by rw [h6, ha.2]⟩ hno
  have hstep : ∀ n, ConnState.run cfg .new (upTo σ (n + 1)) =
      (((ConnState.run cfg .new (upTo σ n)).1.step cfg (σ n)).1,
        (ConnState.run cfg .new (upTo σ n)).2 ++
          ((ConnState.run cfg .new (upTo σ n)).1.step cfg (σ n)).2) := by
    intro n
    rw [upTo_succ, conn_run_append]
    simp [ConnState.run]
  have hwaits : ∀ n, N ≤ n → n0 ≤ n → ∃ e, Awaited (ConnState.run cfg .new (upTo σ n)).1 e := by
    intro n hn hn'
    rcases hinput n hn hn' with hp | ⟨hp, -⟩
    · exact ⟨_, .connected hp⟩
    · exact ⟨_, .head hp⟩
  -- bytes that are not understood
  have hread : ∀ n, N ≤ n → n0 ≤ n → (ConnState.run cfg .new (upTo σ n)).1.phase ≠ .connecting →
      ¬ Awaited (ConnState.run cfg .new (upTo σ n)).1 (σ n) := by
    intro n hn hn' hc he
    obtain ⟨hp, hi⟩ := (hinput n hn hn').resolve_left hc
    have hin : σ n = .input := by
      generalize σ n = e at he
      cases he <;> simp_all
    have h1 := hstep n
    have h2 : (ConnState.run cfg .new (upTo σ n)).1.step cfg (σ n) =
        (ConnState.run cfg .new (upTo σ n)).1.fail := by
      rw [hin]
      simp only [ConnState.step, hp, ConnState.pollHead, hi]
    rw [h2] at h1
    have h3 := hinput (n + 1) (by omega) (by omega)
    rw [h1] at h3
    rcases h3 with h3 | ⟨h3, -⟩ <;> cases h3
  obtain ⟨m, hm, he⟩ := hfair (N + n0) (hwaits _ (by omega) (by omega))
  have he := he.resolve_right fun h => h (hwaits m (by omega) (by omega))
  by_cases hc : (ConnState.run cfg .new (upTo σ m)).1.phase = .connecting
  · have hcon : (ConnState.run cfg .new (upTo σ (m + 1))).1.phase ≠ .connecting := by
      rw [hstep m]
      have hin : σ m = .connected true := by
        generalize σ m = e at he
        cases he <;> simp_all
      rw [hin]
      simp [ConnState.step, hc]
    have hstay : ∀ k, (ConnState.run cfg .new (upTo σ (m + 1 + k))).1.phase ≠ .connecting := by
      intro k
      induction k with
      | zero => exact hcon
      | succ k ih =>
        rw [← Nat.add_assoc, hstep]
        exact not_connecting cfg ih _
    obtain ⟨m', hm', he'⟩ := hfair (m + 1) (hwaits _ (by omega) (by omega))
    have he' := he'.resolve_right fun h => h (hwaits m' (by omega) (by omega))
    obtain ⟨k, rfl⟩ := Nat.exists_eq_add_of_le hm'
    exact hread _ (by omega) (by omega) (hstay k) he'
  · exact hread m (by omega) (by omega) hc he

end

section
variable [MethodNames]

omit [MethodNames] in
theorem readLines_some {cur bs : Bytes} (h : [13, 10, 13, 10] <:+: bs) : (readLines cur bs).isSome := by
  fun_induction readLines cur bs with
  | case1 => simp at h
  | case2 a => have := h.length_le; simp at this
  | case3 a b r hab => rfl
  | case4 cur a b r hab hc ih =>
    obtain ⟨rfl, rfl⟩ := hab
    rw [Option.isSome_map]
    rcases List.infix_cons_iff.1 h with h | h
    · have h' : [13, 10] <+: r := by simpa [List.cons_prefix_cons] using h
      obtain ⟨x, rfl⟩ := h'
      simp [readLines]
    · rcases List.infix_cons_iff.1 h with h | h
      · simp [List.cons_prefix_cons] at h
      · exact ih h
  | case5 cur a b r hab ih =>
    rcases List.infix_cons_iff.1 h with h | h
    · simp only [List.cons_prefix_cons] at h
      exact absurd ⟨h.1.symm, h.2.1.symm⟩ hab
    · exact ih h

omit [MethodNames] in
theorem headerText_ends {hs : List Header} {hb : Bytes} (h : HeaderText hs hb) :
    hb = [] ∨ ∃ x, hb = x ++ [13, 10] := by
  induction h with
  | nil => exact .inl rfl
  | cons _ _ _ _ _ ih =>
    right
    rcases ih with rfl | ⟨x, rfl⟩
    · exact ⟨_, List.append_nil _⟩
    · exact ⟨_, (List.append_assoc _ _ _).symm⟩

theorem headText_emptyLine {h : ReqHead} {t : Bytes} (ht : HeadText h t) : EmptyLine t := by
  cases ht with
  | @intro m t hs hb hv hh =>
    rcases headerText_ends hh with rfl | ⟨x, rfl⟩
    · exact ⟨MethodNames.name m ++ [32] ++ utf8 t ++ [32] ++ utf8 "HTTP/1.1".toList, [], by simp⟩
    · exact ⟨MethodNames.name m ++ [32] ++ utf8 t ++ [32] ++ utf8 "HTTP/1.1".toList ++ [13, 10] ++ x, [],
        by simp⟩

theorem readHead_not_more {bs : Bytes} (h : EmptyLine bs) : readHead bs ≠ .more := by
  intro hr
  have := readLines_some (cur := []) h
  rw [readHead] at hr
  cases hl : readLines [] bs with
  | none => rw [hl] at this; cases this
  | some x =>
    rw [hl] at hr
    obtain ⟨ls, rest⟩ := x
    cases ls with
    | nil => cases hr
    | cons l ls =>
      dsimp only at hr
      split at hr <;> cases hr

/-- **C104.** For HTTP: bytes that do not begin with a request according to the grammar. -/
theorem C104_http (junk : Bytes) (hj : NoRequest junk) :
    letI := httpWire
    NoHead junk ∧ (EmptyLine junk → Wire.head junk = .bad) := by
  let := httpWire
  have hn : ∀ h rest, readHead junk ≠ .done h rest := by
    intro h rest hd
    obtain ⟨t, e, ht⟩ := headText_only hd
    exact hj h t ht ⟨rest, e.symm⟩
  refine ⟨fun p h rest hp hd => ?_, fun he => ?_⟩
  · obtain ⟨x, rfl⟩ := hp
    exact hn h (rest ++ x) (readHead_append _ _ _ _ hd)
  · show readHead junk = .bad
    cases hr : readHead junk with
    | done h rest => exact absurd hr (hn h rest)
    | bad => rfl
    | more => exact absurd hr (readHead_not_more he)

end

section
variable [FloatText] [UrlText] [JsonText] [MethodNames] {g : ReadBody}

/-- **C104.** So over HTTP: only the requests before bytes that are no request are read, answered and given
to handlers. -/
theorem C104_http_unread (cfg : ServerCfg) (es : List ConnEvent) (ms : List (ReqHead × Bytes))
    (bytes junk : Bytes) (hms : RequestTexts ms bytes) (hj : NoRequest junk) :
    letI := httpWire
    arriving es <+: bytes ++ junk → ReadsWhole cfg g .new es →
    ∃ seen, seen <+: ms ∧ List.Forall₂ (SameRequest g) (received (connLog cfg es)) seen ∧
      (answers (connLog cfg es)).length ≤ seen.length := by
  let := httpWire
  exact fun harr hw => C104_unread cfg es ms bytes junk (requestTexts_messages hms) (C104_http junk hj).1 harr hw

/-- **C104.** And if there is an empty line in these bytes, then the connection ends with a warning, after
all requests before them have been answered, whatever follows. -/
theorem C104_http_ends (cfg : ServerCfg) (σ : Nat → ConnEvent) (ms : List (ReqHead × Bytes))
    (bytes junk : Bytes) (hms : RequestTexts ms bytes) (hj : NoRequest junk) (he : EmptyLine junk)
    (hpath : ∀ m ∈ ms, ¬ Pathless cfg m.1) :
    letI := httpWire
    (∃ n, bytes ++ junk <+: arriving (upTo σ n)) →
    (∀ n, ReadsWhole cfg g .new (upTo σ n)) → (∀ n, Smooth cfg .new (upTo σ n)) → Fair cfg σ →
    ∃ n l, connLog cfg (upTo σ n) = l ++ [.warned] ∧ AllAnswered ms l := by
  let := httpWire
  exact fun hall hw hs hf => C104_ends cfg σ ms bytes junk (requestTexts_messages hms)
    ((C104_http junk hj).2 he) hall hw hs hpath hf

end

end Htrpc
