/-
C106: every sequence of bytes.
-/
import Verif.Spec.Stream
import Verif.Props.Limits
import Mathlib.Data.List.Induction

namespace Htrpc
open Spec Http

section
variable [FloatText] [UrlText] [JsonText] [Wire] {g : ReadBody} {junk : Bytes}

/-- A connection that is in order only fails because of what is not understood. -/
theorem alive_fails {cfg : ServerCfg} {ms : List (ReqHead × Bytes)} {c : ConnState}
    {log : List ConnEffect} {fut : Bytes} (h : Alive cfg g junk ms c log fut)
    (hpath : ∀ m ∈ ms, ¬ Pathless cfg m.1) (e : ConnEvent) (es : List ConnEvent)
    (hs : Smooth cfg c (e :: es)) (hf : (c.step cfg e).1.phase = .failed) :
    c.phase = .failed ∨ (e = .input ∧ c.phase = .readHead ∧ Wire.head c.input = .bad ∧
      c.input ++ fut = junk) := by
  obtain ⟨⟨hs1, hs2, hs3, hs4, hs5⟩, -⟩ := hs
  cases e with
  | recv bs => rw [ConnState.step] at hf; split at hf <;> exact .inl hf
  | close k => rw [ConnState.step] at hf; split at hf <;> exact .inl hf
  | notReady => exact .inl hf
  | connected ok =>
    rw [ConnState.step] at hf
    split at hf
    · cases ok with
      | true => cases hf
      | false => exact absurd rfl hs1
    · exact .inl hf
  | input =>
    rw [ConnState.step] at hf
    split at hf
    · rename_i hp
      rw [ConnState.pollHead] at hf
      rcases alive_head h hpath hp with ⟨ha, hm | hm⟩ | ⟨hm, hc, -⟩ | ⟨hd, rest, f, hw, hbf, hj⟩
      · rw [hm] at hf
        dsimp only at hf
        cases hc : c.closed with
        | none => rw [hc] at hf; exact .inl hf
        | some k =>
          cases k with
          | eof => rw [hc] at hf; cases hf
          | reset => rw [hc] at hf; cases hf
          | failure => exact absurd hc h.smooth
      · refine .inr ⟨rfl, hp, hm, ?_⟩
        obtain ⟨seen, left, h1, h2, h3⟩ := h.sync
        rw [Left, hp] at h3
        cases left with
        | nil => exact Stream.nil_input h3
        | cons m left =>
          obtain ⟨h', b⟩ := m
          obtain ⟨rest', hh, -⟩ := Stream.head h3
          rw [Wire.head_bad _ _ hm] at hh
          cases hh
      · rw [hm] at hf
        dsimp only at hf
        rw [hc] at hf
        exact .inl hf
      · rw [hw] at hf
        dsimp only at hf
        rcases hj with ⟨p, hj⟩ | ⟨s, v, hj⟩
        · rw [accept_refuse hj hbf] at hf; cases hf
        · rw [accept_call hj hbf] at hf; cases hf
    · rename_i hd p hp
      rw [ConnState.pollRefusing] at hf
      obtain ⟨f, hbf, ⟨hw, hc, -⟩ | ⟨b, rest, hw⟩⟩ := alive_body h (.inl ⟨p, hp⟩)
      · simp only [hbf, hw, hc] at hf
        exact .inl hf
      · obtain ⟨r, hr⟩ := problem_answered h.at_ hp { c with input := rest }
        simp only [hbf, hw, hr] at hf
        cases hf
    · exact .inl hf
  | bodyRead w rest =>
    rw [ConnState.step] at hf
    split at hf
    · split at hf
      · exact .inl hf
      · split at hf
        · cases hf
        · exact .inl hf
    · exact .inl hf
  | bodyFailed => exact absurd rfl hs3
  | handled v body =>
    rw [ConnState.step] at hf
    split at hf
    · rename_i hp
      obtain ⟨r, hr⟩ := hs5 v body rfl hp
      rw [ConnState.respond, hr] at hf
      cases hf
    · exact .inl hf
  | written ok =>
    rw [ConnState.step] at hf
    split at hf
    · cases ok with
      | true => cases hf
      | false => exact absurd rfl hs4
    · exact .inl hf

theorem alive_first_fails {cfg : ServerCfg} {ms : List (ReqHead × Bytes)} (es : List ConnEvent)
    {c : ConnState} {log : List ConnEffect} {tail : Bytes} (hj : NoHead junk)
    (h : Alive cfg g junk ms c log (toCome c es tail)) (hw : ReadsWhole cfg g c es)
    (hpath : ∀ m ∈ ms, ¬ Pathless cfg m.1) (hs : Smooth cfg c es)
    (ht : (c.closed ≠ none ∨ ∃ k, .close k ∈ es) → tail = []) (hc : c.phase ≠ .failed)
    (hf : (c.run cfg es).1.phase = .failed) :
    ∃ e1 e2 fut, es = e1 ++ .input :: e2 ∧ (c.run cfg e1).1.phase = .readHead ∧
      Wire.head (c.run cfg e1).1.input = .bad ∧ (c.run cfg e1).1.input ++ fut = junk := by
  induction es generalizing c log with
  | nil => exact absurd hf hc
  | cons e es ih =>
    by_cases h1 : (c.step cfg e).1.phase = .failed
    · obtain ⟨rfl, h2, h3, h4⟩ := (alive_fails h hpath e es hs h1).resolve_left hc
      exact ⟨[], es, _, rfl, h2, h3, h4⟩
    · obtain ⟨h2, h3⟩ := h.next e es hw hpath hs ht (.inl hj)
      obtain ⟨e1, e2, fut, rfl, h4⟩ := ih h2 hw.2 hs.2 h3 h1 hf
      exact ⟨e :: e1, e2, fut, rfl, h4⟩

theorem warned_failed {cfg : ServerCfg} {c : ConnState} {l : List ConnEffect}
    (h : AtConn cfg c (l ++ [.warned])) : c.phase = .failed := by
  rcases h.ended_iff ⟨_, List.mem_append_right _ List.mem_cons_self, rfl⟩ with hp | hp | hp
  · obtain ⟨past, cur, h1, -, h2⟩ := h
    rw [Current, hp] at h2
    subst h2
    exact absurd (List.append_inj_right' h1 rfl) (by simp)
  · exact hp
  · obtain ⟨past, cur, h1, -, h2⟩ := h
    rw [Current, hp] at h2
    obtain ⟨h, -, rfl⟩ := h2
    rw [show past ++ [.read h, .panicked] = (past ++ [.read h]) ++ [ConnEffect.panicked] by simp] at h1
    exact absurd (List.append_inj_right' h1 rfl) (by simp)

omit [JsonText] in
/-- A request whose headers do not say where its body ends is not accepted. -/
theorem accept_undelimited (cfg : ServerCfg) (c : ConnState) {h : ReqHead} (hb : Wire.body h.headers = none) :
    ((c.accept cfg h).1.phase = .failed ∧ (c.accept cfg h).2 = [.warned]) ∨
      ((c.accept cfg h).1.phase = .panicked ∧ (c.accept cfg h).2 = [.panicked]) := by
  simp only [ConnState.accept, ConnState.handle, ConnState.withBody, hb]
  split
  · exact .inl ⟨rfl, rfl⟩
  · exact .inr ⟨rfl, rfl⟩
  · split
    · exact .inl ⟨rfl, rfl⟩
    · split
      · exact .inl ⟨rfl, rfl⟩
      · exact .inl ⟨rfl, rfl⟩
      · exact .inr ⟨rfl, rfl⟩
    · exact .inl ⟨rfl, rfl⟩
    · exact .inr ⟨rfl, rfl⟩

end

/-- Reading a head, which is not understood if its headers do not say where the body ends. -/
def delimitHead (w : Wire) (bs : Bytes) : Parsed ReqHead :=
  match w.head bs with
  | .done h rest => if (w.body h.headers).isSome then .done h rest else .bad
  | .more => .more
  | .bad => .bad

theorem delimitHead_eq (w : Wire) (bs : Bytes) : delimitHead w bs = match w.head bs with
  | .done h rest => if (w.body h.headers).isSome then .done h rest else .bad
  | .more => .more
  | .bad => .bad := rfl

/-- The transport that does not understand the heads of requests whose headers do not say where the body
ends. -/
@[instance_reducible] def delimited (w : Wire) : Wire where
  head bs := delimitHead w bs
  body := w.body
  head_nil := by rw [delimitHead_eq, w.head_nil]
  head_append bs h rest more hd := by
    rw [delimitHead_eq] at hd ⊢
    cases hr : w.head bs with
    | done h' rest' =>
      rw [hr] at hd
      dsimp only at hd
      rw [w.head_append _ _ _ more hr]
      dsimp only
      split at hd
      · rename_i hs
        cases hd
        rw [if_pos hs]
      · cases hd
    | more => rw [hr] at hd; cases hd
    | bad => rw [hr] at hd; cases hd
  body_append := w.body_append
  head_bad bs more hd := by
    rw [delimitHead_eq] at hd ⊢
    cases hr : w.head bs with
    | done h' rest' =>
      rw [hr] at hd
      dsimp only at hd
      rw [w.head_append _ _ _ more hr]
      dsimp only
      split at hd
      · cases hd
      · rename_i hs
        rw [if_neg hs]
    | more => rw [hr] at hd; cases hd
    | bad => rw [w.head_bad _ more hr]
  body_bad := w.body_bad
  body_rest := w.body_rest

theorem delimited_stricter (w : Wire) : Stricter (delimited w) w := by
  refine ⟨fun _ => rfl, fun bs => ?_⟩
  show delimitHead w bs = _ ∨ delimitHead w bs = _
  rw [delimitHead_eq]
  cases w.head bs with
  | done h rest => dsimp only; split; exacts [.inl rfl, .inr rfl]
  | more => exact .inl rfl
  | bad => exact .inl rfl

theorem delimited_bad {w : Wire} {bs : Bytes} (h : (delimited w).head bs = .bad) :
    w.head bs = .bad ∨ ∃ h rest, w.head bs = .done h rest ∧ w.body h.headers = none := by
  replace h : delimitHead w bs = .bad := h
  rw [delimitHead_eq] at h
  cases hr : w.head bs with
  | done h' rest =>
    rw [hr] at h
    dsimp only at h
    split at h
    · cases h
    · rename_i hs
      exact .inr ⟨h', rest, rfl, by simpa using hs⟩
  | more => rw [hr] at h; cases h
  | bad => exact .inl rfl

theorem delimited_messages {w : Wire} {ms : List (ReqHead × Bytes)} {bytes : Bytes}
    (h : @Messages w ms bytes) : @Messages (delimited w) ms bytes := by
  induction h with
  | nil => exact @Messages.nil (delimited w)
  | @cons h b bytes ms rest hm _ ih =>
    refine @Messages.cons (delimited w) _ _ _ _ _ ?_ ih
    obtain ⟨hb, bb, e, h1, f, h2, h3⟩ := hm
    refine @Message.mk (delimited w) _ _ _ ⟨hb, bb, e, fun more => ?_, f, h2, h3⟩
    show delimitHead w _ = _
    rw [delimitHead_eq, h1]
    dsimp only
    rw [h2]
    rfl

theorem delimited_noHead {w : Wire} {junk : Bytes} {h : ReqHead} {rest : Bytes}
    (hh : w.head junk = .done h rest) (hb : w.body h.headers = none) :
    (delimited w).head junk = .bad ∧ @NoHead (delimited w) junk := by
  have h1 : (delimited w).head junk = .bad := by
    show delimitHead w _ = _
    rw [delimitHead_eq, hh]
    dsimp only
    rw [hb]
    rfl
  refine ⟨h1, fun p h' rest' hp hd => ?_⟩
  obtain ⟨x, rfl⟩ := hp
  rw [(delimited w).head_append _ _ _ x hd] at h1
  cases h1

section
variable [FloatText] [UrlText] [JsonText] {g : ReadBody} {junk : Bytes}

/-- Up to the head of a request whose headers do not say where its body ends, nothing is different. -/
theorem run_delimited {w : Wire} {cfg : ServerCfg} {c : ConnState} {h : ReqHead} {rest : Bytes}
    {ms : List (ReqHead × Bytes)} {log : List ConnEffect} {tail : Bytes} (es : List ConnEvent)
    (hh : w.head junk = .done h rest) (hb : w.body h.headers = none)
    (hat : AtConn cfg c log)
    (hs : @Sync _ (delimited w) g junk ms c log (toCome c es tail)) (hw : @ReadsWhole _ _ _ w cfg g c es) :
    (@ConnState.run _ _ _ (delimited w) cfg c es = @ConnState.run _ _ _ w cfg c es ∧
      @ReadsWhole _ _ _ (delimited w) cfg g c es ∧
      (@Smooth _ _ _ w cfg c es → @Smooth _ _ _ (delimited w) cfg c es)) ∨
      ∃ e1 e2 rest', es = e1 ++ .input :: e2 ∧ (@ConnState.run _ _ _ w cfg c e1).1.phase = .readHead ∧
        w.head (@ConnState.run _ _ _ w cfg c e1).1.input = .done h rest' ∧
        List.Forall₂ (SameRequest g) (received (log ++ (@ConnState.run _ _ _ w cfg c e1).2)) ms ∧
        AllAnswered ms (log ++ (@ConnState.run _ _ _ w cfg c e1).2) := by
  induction es generalizing c log with
  | nil => exact .inl ⟨rfl, trivial, id⟩
  | cons e es ih =>
    have hnext := @Sync.next _ _ _ (delimited w) g junk cfg ms e es c log tail
      (.inl (delimited_noHead hh hb).2) hs hw.1
    by_cases hstep : @ConnState.step _ _ _ (delimited w) cfg c e = @ConnState.step _ _ _ w cfg c e
    · rw [hstep] at hnext
      have hat' := @AtConn.step _ _ _ w cfg c log hat e
      rcases ih hat' hnext hw.2 with ⟨h1, h1', h1''⟩ | ⟨e1, e2, rest', rfl, h2, h3, h4⟩
      · left
        refine ⟨by simp only [ConnState.run, hstep, h1], ⟨hw.1, by rw [hstep]; exact h1'⟩,
          fun hsm => ⟨hsm.1, by rw [hstep]; exact h1'' hsm.2⟩⟩
      · right
        refine ⟨e :: e1, e2, rest', rfl, h2, h3, ?_⟩
        simp only [ConnState.run]
        rw [← List.append_assoc]
        exact h4
    · right
      obtain ⟨hp, hbad, -⟩ := (step_stricter (delimited_stricter w) cfg c e).resolve_left hstep
      have he : e = .input := by
        cases e with
        | input => rfl
        | _ => exact absurd rfl hstep
      subst he
      obtain ⟨seen, left, h1, h2, h3⟩ := hs
      simp only [Left, hp] at h3
      cases left with
      | cons m left =>
        obtain ⟨h', b⟩ := m
        obtain ⟨rest', hh', -⟩ := @Stream.head _ _ _ (delimited w) _ _ _ _ _ h3
        rw [(delimited w).head_bad _ _ hbad] at hh'
        cases hh'
      | nil =>
        have hn := @Stream.nil_input _ _ _ (delimited w) _ _ h3
        rw [List.append_nil] at h1
        subst h1
        have hall := all_answered (g := g) hat hp h2
        rcases delimited_bad hbad with h4 | ⟨h', rest', h4, -⟩
        · have := w.head_bad _ (toCome c (.input :: es) tail) h4
          rw [hn, hh] at this
          cases this
        · have := w.head_append _ _ _ (toCome c (.input :: es) tail) h4
          rw [hn, hh] at this
          cases this
          refine ⟨[], es, rest', rfl, hp, h4, ?_⟩
          simp only [ConnState.run, List.append_nil]
          exact ⟨h2, hall⟩

/-- What then happens. -/
theorem run_undelimited [Wire] (cfg : ServerCfg) {c : ConnState} {h : ReqHead} {rest : Bytes}
    (hp : c.phase = .readHead) (hh : Wire.head c.input = .done h rest) (hb : Wire.body h.headers = none)
    (es : List ConnEvent) :
    (ConnState.run cfg c (.input :: es)).2 = [.read h, .warned] ∨
      (ConnState.run cfg c (.input :: es)).2 = [.read h, .panicked] := by
  have h1 : c.step cfg .input = ((ConnState.accept cfg { c with input := rest } h).1,
      .read h :: (ConnState.accept cfg { c with input := rest } h).2) := by
    simp only [ConnState.step, hp, ConnState.pollHead, hh]
  simp only [ConnState.run, h1]
  rcases accept_undelimited cfg { c with input := rest } hb with ⟨h2, h3⟩ | ⟨h2, h3⟩
  · left
    rw [run_ended cfg (.inr (.inl h2)), h3]
    rfl
  · right
    rw [run_ended cfg (.inr (.inr h2)), h3]
    rfl

/-- **C106.** If the head of a request follows whose headers do not say where its body ends, then only the
requests before it are answered and given to handlers, whatever follows; with this head the connection is
over. -/
theorem C106_undelimited [w : Wire] (cfg : ServerCfg) (g : ReadBody) (es : List ConnEvent)
    (ms : List (ReqHead × Bytes)) (bytes junk : Bytes) (h : ReqHead) (rest : Bytes)
    (hms : Messages ms bytes) (hh : Wire.head junk = .done h rest) (hb : Wire.body h.headers = none)
    (harr : arriving es <+: bytes ++ junk) (hw : ReadsWhole cfg g .new es) :
    ∃ l seen, seen <+: ms ∧ List.Forall₂ (SameRequest g) (received l) seen ∧
      (answers l).length ≤ seen.length ∧
      (connLog cfg es = l ∨ (seen = ms ∧ AllAnswered ms l ∧
        (connLog cfg es = l ++ [.read h, .warned] ∨ connLog cfg es = l ++ [.read h, .panicked]))) := by
  have hno := (delimited_noHead hh hb).2
  have hms' := delimited_messages hms
  have harr' := harr
  obtain ⟨tail, htail⟩ := harr'
  have h0 : @Sync _ (delimited w) g junk ms .new [] (toCome .new es tail) := by
    refine ⟨[], ms, rfl, .nil, ?_⟩
    show @Stream (delimited w) junk ms ([] ++ toCome .new es tail)
    rw [show toCome .new es tail = arriving es ++ tail from rfl, htail]
    exact ⟨bytes, rfl, hms'⟩
  rcases run_delimited es hh hb (.new cfg) h0 hw with ⟨h1, h2, -⟩ | ⟨e1, e2, rest', rfl, h1, h2, h3, h4⟩
  · obtain ⟨seen, h3, h4, h5⟩ := @C104_unread _ _ _ (delimited w) g cfg es ms bytes junk hms' hno harr h2
    have he : @connLog _ _ _ (delimited w) cfg es = connLog cfg es := congrArg Prod.snd h1
    rw [he] at h4 h5
    exact ⟨_, seen, h3, h4, h5, .inl rfl⟩
  · rw [List.nil_append] at h3 h4
    refine ⟨_, ms, List.prefix_refl _, h3, ?_, .inr ⟨rfl, h4, ?_⟩⟩
    · have h5 := (C39_one_at_a_time cfg e1 _ (List.prefix_refl _)).2.1
      have h6 := congrArg List.length h4.1
      rw [List.length_map] at h6
      exact Nat.le_trans h5 (Nat.le_of_eq h6)
    · rw [connLog, conn_run_append]
      rcases run_undelimited cfg h1 h2 hb e2 with h5 | h5 <;> rw [h5]
      · exact .inl rfl
      · exact .inr rfl

/-- **C106.** And the connection ends with a warning, after all requests before have been answered,
whatever follows. -/
theorem C106_undelimited_ends [w : Wire] (cfg : ServerCfg) (g : ReadBody) (σ : Nat → ConnEvent)
    (ms : List (ReqHead × Bytes)) (bytes junk : Bytes) (h : ReqHead) (rest : Bytes)
    (hms : Messages ms bytes) (hh : Wire.head junk = .done h rest) (hb : Wire.body h.headers = none)
    (hall : ∃ n, bytes ++ junk <+: arriving (upTo σ n)) (hw : ∀ n, ReadsWhole cfg g .new (upTo σ n))
    (hs : ∀ n, Smooth cfg .new (upTo σ n)) (hpath : ∀ m ∈ ms, ¬ Pathless cfg m.1)
    (hp : ¬ Pathless cfg h) (hfair : Fair cfg σ) :
    ∃ n l, connLog cfg (upTo σ n) = l ++ [.read h, .warned] ∧ AllAnswered ms l := by
  have hms' := delimited_messages hms
  have h0 : ∀ n, ∃ tail junk' rest', arriving (upTo σ n) ++ tail = bytes ++ junk' ∧
      Wire.head junk' = .done h rest' ∧
      @Sync _ (delimited w) g junk' ms .new [] (toCome .new (upTo σ n) tail) ∧
      (bytes ++ junk <+: arriving (upTo σ n) → tail = []) := by
    intro n
    obtain ⟨N, hN⟩ := hall
    have key : ∀ m, n ≤ m → bytes ++ junk <+: arriving (upTo σ m) → ∃ tail junk' rest',
        arriving (upTo σ n) ++ tail = bytes ++ junk' ∧ Wire.head junk' = .done h rest' ∧
        @Sync _ (delimited w) g junk' ms .new [] (toCome .new (upTo σ n) tail) ∧ (n = m → tail = []) := by
      intro m hm hbm
      obtain ⟨b, hb'⟩ := upTo_le σ hm
      obtain ⟨tail, htail⟩ := hb' ▸ arriving_prefix (upTo σ n) b
      obtain ⟨x, hx⟩ := hbm
      rw [List.append_assoc] at hx
      refine ⟨tail, junk ++ x, rest ++ x, by rw [htail, hx], Wire.head_append _ _ _ x hh, ?_, ?_⟩
      · refine ⟨[], ms, rfl, .nil, ?_⟩
        show @Stream (delimited w) (junk ++ x) ms ([] ++ toCome .new (upTo σ n) tail)
        rw [show toCome .new (upTo σ n) tail = arriving (upTo σ n) ++ tail from rfl, htail, ← hx]
        exact ⟨bytes, rfl, hms'⟩
      · rintro rfl
        simpa using htail
    by_cases hb' : bytes ++ junk <+: arriving (upTo σ n)
    · obtain ⟨tail, junk', rest', h1, h2, h3, h4⟩ := key n (Nat.le_refl _) hb'
      exact ⟨tail, junk', rest', h1, h2, h3, fun _ => h4 rfl⟩
    · obtain ⟨b, hb''⟩ := upTo_le σ (Nat.le_max_right n N)
      obtain ⟨tail, junk', rest', h1, h2, h3, -⟩ := key (max n N) (Nat.le_max_left _ _)
        (hN.trans (hb'' ▸ arriving_prefix (upTo σ N) b))
      exact ⟨tail, junk', rest', h1, h2, h3, fun h => absurd h hb'⟩
  refine Classical.byContradiction fun hcon => ?_
  have key : ∀ n, @ConnState.run _ _ _ (delimited w) cfg .new (upTo σ n) =
      ConnState.run cfg .new (upTo σ n) ∧ @ReadsWhole _ _ _ (delimited w) cfg g .new (upTo σ n) ∧
      @Smooth _ _ _ (delimited w) cfg .new (upTo σ n) := by
    intro n
    obtain ⟨tail, junk', rest', -, hh', hsync, -⟩ := h0 n
    rcases run_delimited _ hh' hb (.new cfg) hsync (hw n) with ⟨h1, h2, h3⟩ |
      ⟨e1, e2, rest'', he, h1, h2, h3, h4⟩
    · exact ⟨h1, h2, h3 (hs n)⟩
    · refine absurd ?_ hcon
      rw [List.nil_append] at h4
      rcases run_undelimited cfg h1 h2 hb e2 with h5 | h5
      · exact ⟨n, _, by rw [connLog, he, conn_run_append, h5], h4⟩
      · refine absurd ?_ hp
        have h6 : connLog cfg (upTo σ n) = connLog cfg e1 ++ [.read h, .panicked] := by
          rw [connLog, he, conn_run_append, h5]
        obtain ⟨r, hr, hr'⟩ := C42_only_pathless_panics cfg (upTo σ n) (by rw [h6]; simp)
        rw [h6, reads_append, h4.1] at hr
        rcases List.mem_append.1 hr with hr | hr
        · obtain ⟨m, hm, rfl⟩ := List.mem_map.1 hr
          exact absurd hr' (hpath m hm)
        · simp only [reads, List.filterMap_cons, List.filterMap_nil, List.mem_singleton] at hr
          rwa [← hr]
  have hawait : ∀ c e, @Awaited _ (delimited w) c e ↔ Awaited c e := by
    intro c e
    constructor
    · intro ha
      cases ha with
      | connected h => exact .connected h
      | head h => exact .head h
      | drain h => exact .drain h
      | body h h1 h2 => exact .body h h1 h2
      | handled h => exact .handled h
      | written h => exact .written h
    · intro ha
      cases ha with
      | connected h => exact @Awaited.connected _ (delimited w) _ h
      | head h => exact @Awaited.head _ (delimited w) _ h
      | drain h => exact @Awaited.drain _ (delimited w) _ _ _ h
      | body h h1 h2 => exact @Awaited.body _ (delimited w) _ _ _ _ _ _ _ _ h h1 h2
      | handled h => exact @Awaited.handled _ (delimited w) _ _ _ h
      | written h => exact @Awaited.written _ (delimited w) _ h
  have hfair' : @Fair _ _ _ (delimited w) cfg σ := by
    intro n hn
    simp only [(key _).1, hawait] at hn ⊢
    exact hfair n hn
  obtain ⟨n, l, hlog, -⟩ := @C104_ends _ _ _ (delimited w) g cfg σ ms bytes junk hms'
    (delimited_noHead hh hb).1 hall (fun n => (key n).2.1) (fun n => (key n).2.2) hpath hfair'
  obtain ⟨N, hN⟩ := hall
  -- with all bytes there
  have hn' : ∃ n, N ≤ n ∧ (@ConnState.run _ _ _ (delimited w) cfg .new (upTo σ n)).1.phase = .failed := by
    refine ⟨n + N, by omega, ?_⟩
    obtain ⟨b, hb'⟩ := upTo_le σ (show n ≤ n + N by omega)
    have h1 := @C41_nothing_after_end _ _ _ (delimited w) cfg (upTo σ n) b
      ⟨.warned, by rw [hlog]; simp, rfl⟩
    rw [← hb', hlog] at h1
    refine @warned_failed _ _ _ (delimited w) cfg _ l ?_
    have := @atConn _ _ _ (delimited w) cfg (upTo σ (n + N))
    rw [← h1]
    exact this
  obtain ⟨n, hnN, hf⟩ := hn'
  obtain ⟨tail, junk', rest', -, hh', hsync, htl⟩ := h0 n
  have htail : tail = [] := by
    obtain ⟨b, hb'⟩ := upTo_le σ hnN
    exact htl (hN.trans (hb' ▸ arriving_prefix (upTo σ N) b))
  subst htail
  have hno := (delimited_noHead hh' hb).2
  have halive : @Alive _ _ _ (delimited w) cfg g junk' ms .new [] (toCome .new (upTo σ n) []) := by
    refine @Alive.mk _ _ _ (delimited w) _ _ _ _ _ _ _ (.inl hno) hsync (.new cfg) (fun h => absurd rfl h)
      ?_ ?_ ?_ ?_
    · intro h; cases h
    · intro h; cases h
    · intro h; cases h
    · intro h; cases h
  obtain ⟨e1, e2, fut, he, h1, h2, h3⟩ := @alive_first_fails _ _ _ (delimited w) g junk' cfg ms _ _ _ _ hno halive
    (key n).2.1 hpath (key n).2.2 (fun _ => rfl) (by simp [ConnState.new]) hf
  have hup : ∃ m, upTo σ m = e1 ∧ upTo σ (m + 1) = e1 ++ [.input] := by
    have hlen : e1.length + 1 ≤ n := by
      have := congrArg List.length he
      rw [upTo, List.length_map, List.length_range, List.length_append, List.length_cons] at this
      omega
    have hk : ∀ k, k ≤ n → upTo σ k = (e1 ++ .input :: e2).take k := by
      intro k hk
      obtain ⟨b, hb'⟩ := upTo_le σ hk
      rw [← he, hb', List.take_append_of_le_length (by simp [upTo]), List.take_of_length_le (by simp [upTo])]
    refine ⟨e1.length, ?_, ?_⟩
    · rw [hk _ (by omega)]; simp
    · rw [hk _ hlen, List.take_append, List.take_of_length_le (by omega)]
      simp
  obtain ⟨m, hm1, hm2⟩ := hup
  have k1 := (key m).1
  have k2 := (key (m + 1)).1
  rw [hm1] at k1
  rw [hm2, @conn_run_append _ _ _ (delimited w), conn_run_append, k1] at k2
  rw [k1] at h1 h2 h3
  have k3 := congrArg Prod.snd k2
  dsimp only at k3
  have k4 := List.append_cancel_left k3
  rcases delimited_bad h2 with h4 | ⟨h', rest'', h4, h5⟩
  · have := Wire.head_bad _ fut h4
    rw [h3, hh'] at this
    cases this
  · have hbad' : @ConnState.step _ _ _ (delimited w) cfg (ConnState.run cfg .new e1).1 .input =
        (ConnState.run cfg .new e1).1.fail := by
      simp only [ConnState.step, h1, ConnState.pollHead, h2]
    have hrun : (@ConnState.run _ _ _ (delimited w) cfg (ConnState.run cfg .new e1).1 [.input]).2 =
        [.warned] := by
      simp only [ConnState.run, hbad']
      rfl
    rw [hrun] at k4
    rcases run_undelimited cfg h1 h4 h5 [] with h6 | h6 <;> rw [h6] at k4 <;> simp at k4

end

section
variable [FloatText] [UrlText] [JsonText] [Wire] {g : ReadBody}

/-- If bytes are missing, then the last body is not used. -/
theorem step_missing {cfg : ServerCfg} {ms : List (ReqHead × Bytes)} {c : ConnState}
    {log : List ConnEffect} {fut : Bytes} (h : Sync g [] ms c log fut) (hfut : fut ≠ []) (e : ConnEvent)
    (hw : ∀ w rest, e = .bodyRead w rest → ∀ h s v, c.phase = .readBody h s v →
      ∀ f, Wire.body h.headers = some f → ∃ b, f c.input = .done b rest ∧ g s v b w) :
    ((reads log).length < ms.length ∧ reads (c.step cfg e).2 = []) ∨
    (Silent (c.step cfg e).2 ∧ answers (c.step cfg e).2 = []) ∨
    ∃ h l, (c.step cfg e).2 = .read h :: l ∧ Silent l ∧ answers l = [] := by
  obtain ⟨seen, left, h1, h2, h3⟩ := h
  have hlen : left ≠ [] → (reads log).length < ms.length := by
    intro hl
    have := congrArg List.length (same_heads h2)
    rw [received_reads, List.length_map] at this
    rw [h1, List.length_append, this]
    have := List.length_pos_iff.2 hl
    omega
  have hstream : Stream [] left (c.input ++ fut) → left ≠ [] := by
    rintro hs rfl
    have := Stream.nil_input hs
    exact hfut (List.append_eq_nil_iff.1 this).2
  have hbody : ∀ {h : ReqHead} {f : Bytes → Parsed Bytes} {b rest : Bytes},
      (∃ log' done b, log = log' ++ [.read h] ∧ seen = done ++ [(h, b)] ∧
        List.Forall₂ (SameRequest g) (received log') done ∧
        ∃ f, Wire.body h.headers = some f ∧ ∃ bb rest, (∀ more, f (bb ++ more) = .done b more) ∧
          c.input ++ fut = bb ++ rest ∧ Stream [] left rest) →
      Wire.body h.headers = some f → f c.input = .done b rest → left ≠ [] := by
    rintro h f b rest ⟨-, -, b', -, -, -, f', hf', bb, rest', hbb, hin, hs⟩ hf hd rfl
    rw [hf] at hf'
    cases hf'
    have h4 := Wire.body_append _ _ _ _ _ fut hf hd
    rw [hin, hbb] at h4
    cases h4
    exact hfut (List.append_eq_nil_iff.1 (Stream.nil_input hs)).2
  have hnil : ∀ c : ConnState, (Silent (c, ([] : List ConnEffect)).2 ∧
      answers (c, ([] : List ConnEffect)).2 = []) := fun c => ⟨by simp [Silent], rfl⟩
  have hfail : ∀ c : ConnState, Silent c.fail.2 ∧ answers c.fail.2 = [] :=
    fun c => ⟨by simp [Silent, ConnState.fail], rfl⟩
  have hresp : ∀ (c : ConnState) v body, reads (c.respond v body).2 = [] := by
    intro c v body
    rw [ConnState.respond]
    split <;> rfl
  cases e with
  | recv bs => rw [ConnState.step]; split <;> exact .inr (.inl (hnil _))
  | close k => rw [ConnState.step]; split <;> exact .inr (.inl (hnil _))
  | notReady => exact .inr (.inl (hnil _))
  | connected ok =>
    rw [ConnState.step]
    split
    · split
      · exact .inr (.inl (hnil _))
      · exact .inr (.inl (hfail _))
    · exact .inr (.inl (hnil _))
  | input =>
    rw [ConnState.step]
    split
    · rw [ConnState.pollHead]
      split
      · rename_i hd rest hhead
        refine .inr (.inr ⟨hd, _, rfl, ?_⟩)
        rcases accept_left cfg { c with input := rest } hd with
          ⟨phase, he, -⟩ | ⟨c', he, -⟩ | ⟨c', he, -⟩
        · rw [he]; exact hnil _
        · rw [he]; exact hfail _
        · rw [he]; exact ⟨by simp [Silent, ConnState.panic], rfl⟩
      · exact .inr (.inl (hfail _))
      · split
        · exact .inr (.inl (hnil _))
        · exact .inr (.inl ⟨by simp [Silent], rfl⟩)
        · exact .inr (.inl ⟨by simp [Silent], rfl⟩)
        · exact .inr (.inl (hfail _))
    · rename_i hd p hp
      rw [ConnState.pollRefusing]
      split
      · exact .inr (.inl (hfail _))
      · rename_i f hf
        split
        · rename_i b rest hr
          rw [Left, hp] at h3
          exact .inl ⟨hlen (hbody h3 hf hr), hresp _ _ _⟩
        · exact .inr (.inl (hfail _))
        · split
          · exact .inr (.inl (hnil _))
          · exact .inr (.inl (hfail _))
    · exact .inr (.inl (hnil _))
  | bodyRead w rest =>
    rw [ConnState.step]
    split
    · rename_i hd s v hp
      split
      · exact .inr (.inl (hnil _))
      · rename_i f hf
        obtain ⟨b, hr, -⟩ := hw w rest rfl _ _ _ hp f hf
        rw [Left, hp] at h3
        split
        · exact .inl ⟨hlen (hbody h3 hf hr), rfl⟩
        · exact .inr (.inl (hnil _))
    · exact .inr (.inl (hnil _))
  | bodyFailed =>
    rw [ConnState.step]
    split
    · exact .inr (.inl (hfail _))
    · exact .inr (.inl (hnil _))
  | handled v body =>
    rw [ConnState.step]
    split
    · rename_i hp
      rw [Left, hp] at h3
      exact .inl ⟨hlen (hstream h3), hresp _ _ _⟩
    · exact .inr (.inl (hnil _))
  | written ok =>
    rw [ConnState.step]
    split
    · split
      · exact .inr (.inl ⟨by simp [Silent], rfl⟩)
      · exact .inr (.inl (hfail _))
    · exact .inr (.inl (hnil _))

theorem readsWhole_split {cfg : ServerCfg} {c : ConnState} {es es' : List ConnEvent}
    (h : ReadsWhole cfg g c (es ++ es')) : ReadsWhole cfg g c es ∧ ReadsWhole cfg g (c.run cfg es).1 es' := by
  induction es generalizing c with
  | nil => exact ⟨trivial, h⟩
  | cons e es ih => exact ⟨⟨h.1, (ih h.2).1⟩, (ih h.2).2⟩

/-- **C106.** As long as bytes of the last of these requests are missing, its body is not used, and it is not
answered. -/
theorem C106_cut_off (cfg : ServerCfg) (es : List ConnEvent) (ms : List (ReqHead × Bytes)) (bytes : Bytes)
    (hms : Messages ms bytes) (harr : arriving es <+: bytes) (hne : arriving es ≠ bytes)
    (hw : ReadsWhole cfg g .new es) (r : List (ReqHead × BodyUse)) (x : ReqHead × BodyUse)
    (hr : received (connLog cfg es) = r ++ [x]) (hlen : r.length + 1 = ms.length) :
    x.2 = .pending ∧ (answers (connLog cfg es)).length < ms.length := by
  induction es using List.reverseRecOn generalizing r x with
  | nil => simp [connLog, ConnState.run, received] at hr
  | append_singleton es e ih =>
    have hpre := arriving_prefix es [e]
    have hne' : arriving es ≠ bytes := by
      intro he
      rw [← he] at harr
      exact hne ((harr.eq_of_length_le hpre.length_le).trans he)
    obtain ⟨hw1, hw2⟩ := readsWhole_split hw
    obtain ⟨tail, htail⟩ := hpre.trans harr
    have htail' : tail ≠ [] := by
      rintro rfl
      rw [List.append_nil] at htail
      exact hne' htail
    have h0 : Sync g [] ms .new [] (toCome .new es tail) := by
      refine ⟨[], ms, rfl, .nil, ?_⟩
      show Stream [] ms ([] ++ toCome .new es tail)
      rw [show toCome .new es tail = arriving es ++ tail from rfl, htail]
      exact stream_nil.2 hms
    have h1 := h0.run es noHead_nil hw1
    have hlog : connLog cfg (es ++ [e]) = connLog cfg es ++
        ((ConnState.run cfg .new es).1.step cfg e).2 := by
      rw [connLog, conn_run_append]
      simp [ConnState.run, connLog]
    have hcount : (reads (connLog cfg (es ++ [e]))).length = ms.length := by
      rw [← received_reads, List.length_map, hr, List.length_append, ← hlen]
      rfl
    rw [hlog] at hr hcount ⊢
    have hans : ∀ l, answers (connLog cfg es ++ l) = answers (connLog cfg es) ++ answers l :=
      fun l => List.filterMap_append
    rcases step_missing (cfg := cfg) h1 htail' e hw2.1 with ⟨h2, h3⟩ | ⟨h2, h3⟩ | ⟨h, l, h2, h3, h4⟩
    · rw [reads_append, h3, List.append_nil] at hcount
      exact absurd h2 (by rw [List.nil_append]; show ¬ (reads (connLog cfg es)).length < _; omega)
    · rw [received_append_silent _ h2] at hr
      rw [hans, h3, List.append_nil]
      exact ih (hpre.trans harr) hne' hw1 r x hr hlen
    · rw [h2] at hr ⊢
      rw [received_append _ (notDrained_read _ _)] at hr
      have h5 : received (.read h :: l) = [(h, .pending)] := by
        have := received_append_silent [.read h] h3
        simpa [received] using this
      rw [h5] at hr
      obtain ⟨h6, h7⟩ := List.append_inj' hr rfl
      cases h7
      refine ⟨rfl, ?_⟩
      rw [hans, show answers (.read h :: l) = answers l from rfl, h4, List.append_nil]
      have h8 := (C39_one_at_a_time cfg es _ (List.prefix_refl _)).2.1
      rw [← received_reads, List.length_map, h6] at h8
      omega

end

section
variable [MethodNames]

theorem headText_ne_nil {h : ReqHead} {t : Bytes} (ht : HeadText h t) : t ≠ [] := by
  rintro rfl
  have := (headText_emptyLine ht).length_le
  simp at this

/-- The text of a head is found in only one way. -/
theorem headText_unique {h h' : ReqHead} {t t' x x' : Bytes} (ht : HeadText h t) (ht' : HeadText h' t')
    (he : t ++ x = t' ++ x') : h = h' ∧ t = t' ∧ x = x' := by
  have h1 := headText_read ht x
  rw [he, headText_read ht' x'] at h1
  cases h1
  exact ⟨rfl, List.append_cancel_right he, rfl⟩

theorem bodyLength_unique {h : ReqHead} {t : Bytes} (ht : HeadText h t) {n n' : Nat}
    (hn : BodyLength h.headers n) (hn' : BodyLength h.headers n') : n = n' := by
  have ha : AsciiNames h.headers := by
    cases ht with
    | intro hv hh => exact safe_ascii hh.safe
  obtain ⟨f, h1, h2⟩ := (readBody_iff ha).1 n hn
  obtain ⟨f', h1', h2'⟩ := (readBody_iff ha).1 n' hn'
  rw [h1] at h1'
  cases h1'
  have key : ∀ a b : Nat, (∀ bs, f bs = if a ≤ bs.length then .done (bs.take a) (bs.drop a) else .more) →
      (∀ bs, f bs = if b ≤ bs.length then .done (bs.take b) (bs.drop b) else .more) → a ≤ b := by
    intro a b ha hb
    have := ha (List.replicate b 0)
    rw [hb, if_pos (by simp)] at this
    by_contra hc
    rw [if_neg (by simpa using hc)] at this
    cases this
  exact Nat.le_antisymm (key _ _ h2 h2') (key _ _ h2' h2)

/-- **C106.** Every sequence of bytes consists of complete requests for which the server has room, and of
bytes that are left for one of four reasons. -/
theorem C106_splits (bytes : Bytes) : ∃ ms k, Splits bytes ms k := by
  induction hlen : bytes.length using Nat.strongRecOn generalizing bytes with
  | ind n ih =>
    subst hlen
    by_cases hu : Unfit bytes
    · by_cases he : EmptyLine bytes ∨ 8096 ≤ bytes.length
      · exact ⟨[], .refused, [], bytes, rfl, .nil, .refused hu he⟩
      · rw [not_or, Nat.not_le] at he
        exact ⟨[], .waiting, [], bytes, rfl, .nil, .waiting hu he.1 he.2⟩
    · have hex : ∃ h t, HeadText h t ∧ t <+: bytes ∧ Fits h t := by
        by_contra hc
        exact hu fun h t ht hp hf => hc ⟨h, t, ht, hp, hf⟩
      obtain ⟨h, t, ht, ⟨x, rfl⟩, hf⟩ := hex
      by_cases hb : ∃ n, BodyLength h.headers n
      · obtain ⟨n, hb⟩ := hb
        by_cases hn : x.length < n
        · exact ⟨[], .part h, [], t ++ x, rfl, .nil, .part ht hf hb hn⟩
        · have hpos := List.length_pos_iff.2 (headText_ne_nil ht)
          obtain ⟨ms, k, front, rest, e, h1, h2⟩ := ih (x.drop n).length
            (by rw [List.length_append, List.length_drop]; omega) (x.drop n) rfl
          refine ⟨(h, x.take n) :: ms, k, t ++ x.take n ++ front, rest, ?_, ?_, h2⟩
          · rw [List.append_assoc, List.append_assoc, ← e, List.take_append_drop]
          · exact .cons ht hf (by rw [List.length_take, Nat.min_eq_left (by omega)]; exact hb) h1
      · exact ⟨[], .undelimited h, [], t ++ x, rfl, .nil, .undelimited ht hf fun n hn => hb ⟨n, hn⟩⟩

theorem remains_unique {k k' : Rest} {bs : Bytes} (h : Remains k bs) (h' : Remains k' bs) : k = k' := by
  cases h with
  | waiting h1 h2 h3 =>
    cases h' with
    | waiting => rfl
    | part ht hf => exact absurd hf (h1 _ _ ht ⟨_, rfl⟩)
    | refused _ h4 => exact absurd h4 (by rw [not_or]; exact ⟨h2, by omega⟩)
    | undelimited ht hf => exact absurd hf (h1 _ _ ht ⟨_, rfl⟩)
  | refused h1 h2 =>
    cases h' with
    | waiting _ h3 h4 => exact absurd h2 (by rw [not_or]; exact ⟨h3, by omega⟩)
    | part ht hf => exact absurd hf (h1 _ _ ht ⟨_, rfl⟩)
    | refused => rfl
    | undelimited ht hf => exact absurd hf (h1 _ _ ht ⟨_, rfl⟩)
  | @part h t n bs ht hf hb hn =>
    generalize he : t ++ bs = x at h'
    cases h' with
    | waiting h1 => subst he; exact absurd hf (h1 _ _ ht ⟨_, rfl⟩)
    | refused h1 => subst he; exact absurd hf (h1 _ _ ht ⟨_, rfl⟩)
    | part ht' => rw [(headText_unique ht ht' he).1]
    | undelimited ht' _ hb' =>
      obtain ⟨rfl, -⟩ := headText_unique ht ht' he
      exact absurd hb (hb' n)
  | @undelimited h t bs ht hf hb =>
    generalize he : t ++ bs = x at h'
    cases h' with
    | waiting h1 => subst he; exact absurd hf (h1 _ _ ht ⟨_, rfl⟩)
    | refused h1 => subst he; exact absurd hf (h1 _ _ ht ⟨_, rfl⟩)
    | @part _ _ n _ ht' _ hb' =>
      obtain ⟨rfl, -⟩ := headText_unique ht ht' he
      exact absurd hb' (hb n)
    | undelimited ht' => rw [(headText_unique ht ht' he).1]

/-- **C106.** And this in one way only. -/
theorem C106_splits_once {bytes : Bytes} {ms ms' : List (ReqHead × Bytes)} {k k' : Rest}
    (h : Splits bytes ms k) (h' : Splits bytes ms' k') : ms = ms' ∧ k = k' := by
  obtain ⟨front, rest, rfl, h1, h2⟩ := h
  obtain ⟨front', rest', e, h1', h2'⟩ := h'
  have hone : ∀ {h : ReqHead} {t b x : Bytes} {k : Rest} {r : Bytes}, HeadText h t → Fits h t →
      BodyLength h.headers b.length → t ++ b ++ x = r → Remains k r → False := by
    rintro h t b x k r ht hf hb e hr
    rw [List.append_assoc] at e
    cases hr with
    | waiting h1 => exact h1 h t ht ⟨_, e⟩ hf
    | refused h1 => exact h1 h t ht ⟨_, e⟩ hf
    | part ht' _ hb' hn =>
      obtain ⟨rfl, -, rfl⟩ := headText_unique ht ht' e
      rw [bodyLength_unique ht hb' hb, List.length_append] at hn
      omega
    | undelimited ht' _ hb' =>
      obtain ⟨rfl, -⟩ := headText_unique ht ht' e
      exact hb' _ hb
  induction h1 generalizing ms' front' with
  | nil =>
    cases h1' with
    | nil =>
      rw [List.nil_append, List.nil_append] at e
      exact ⟨rfl, remains_unique h2 (e ▸ h2')⟩
    | cons ht hf hb _ =>
      rw [List.nil_append, List.append_assoc] at e
      exact (hone ht hf hb e.symm h2).elim
  | cons ht hf hb _ ih =>
    cases h1' with
    | nil =>
      rw [List.nil_append, List.append_assoc] at e
      exact (hone ht hf hb e h2').elim
    | cons ht' hf' hb' hms' =>
      simp only [List.append_assoc] at e
      obtain ⟨h3, -, e2⟩ := headText_unique ht ht' e
      subst h3
      obtain ⟨h4, e3⟩ := List.append_inj e2 (bodyLength_unique ht hb hb')
      subst h4
      obtain ⟨rfl, rfl⟩ := ih _ e3 hms'
      exact ⟨rfl, rfl⟩

end

section
variable [LawfulFloatText] [UrlText] [JsonText] [MethodNames]

omit [LawfulFloatText] [UrlText] [JsonText] in
theorem fitting_snoc {ms : List (ReqHead × Bytes)} {bytes : Bytes} (hms : FittingTexts ms bytes)
    {h : ReqHead} {t b : Bytes} (ht : HeadText h t) (hf : Fits h t) (hb : BodyLength h.headers b.length) :
    FittingTexts (ms ++ [(h, b)]) (bytes ++ (t ++ b)) := by
  induction hms with
  | nil => simpa using FittingTexts.cons ht hf hb .nil
  | cons h1 h2 h3 _ ih =>
    have := FittingTexts.cons h1 h2 h3 ih
    simpa using this

omit [LawfulFloatText] [UrlText] [JsonText] in
theorem undelimited_read {h : ReqHead} {t : Bytes} (ht : HeadText h t) (hf : Fits h t)
    (hb : ∀ n, ¬ BodyLength h.headers n) (bs : Bytes) :
    serverWire.head (t ++ bs) = .done h bs ∧ serverWire.body h.headers = none := by
  constructor
  · refine limitHead_done.2 ⟨headText_read ht bs, ?_, hf.2⟩
    rw [List.length_append, Nat.add_sub_cancel]
    exact hf.1
  · have ha : AsciiNames h.headers := by
      cases ht with
      | intro hv hh => exact safe_ascii hh.safe
    cases hr : serverWire.body h.headers with
    | none => rfl
    | some f =>
      obtain ⟨n, hn⟩ := (readBody_iff ha).2 f hr
      exact absurd hn (hb n)

/-- **C106.** Whatever bytes arrive: only the complete requests in them are answered, and have their bodies
used, each as it was sent, in order; of what is left nothing more than a head is read. -/
theorem C106_whatever_arrives (cfg : ServerCfg) (g : ReadBody) (es : List ConnEvent) (bytes : Bytes)
    (ms : List (ReqHead × Bytes)) (k : Rest) (hk : Splits bytes ms k) :
    letI := serverWire
    arriving es <+: bytes → ReadsWhole cfg g .new es →
    ∃ seen r, seen <+: ms ∧ List.Forall₂ (SameRequest g) r seen ∧
      (answers (connLog cfg es)).length ≤ seen.length ∧
      (received (connLog cfg es) = r ∨
        (seen = ms ∧ ∃ h, (k = .part h ∨ k = .undelimited h) ∧
          received (connLog cfg es) = r ++ [(h, .pending)])) := by
  let := serverWire
  intro harr hw
  obtain ⟨front, rest, rfl, hms, hr⟩ := hk
  cases hr with
  | waiting hu =>
    obtain ⟨seen, h1, h2, h3⟩ := C105_unread cfg g es ms front rest hms hu harr hw
    exact ⟨seen, _, h1, h2, h3, .inl rfl⟩
  | refused hu =>
    obtain ⟨seen, h1, h2, h3⟩ := C105_unread cfg g es ms front rest hms hu harr hw
    exact ⟨seen, _, h1, h2, h3, .inl rfl⟩
  | @undelimited h t bs ht hf hb =>
    obtain ⟨h1, h2⟩ := undelimited_read ht hf hb bs
    obtain ⟨l, seen, h3, h4, h5, h6⟩ := C106_undelimited cfg g es ms front _ h _ (fitting_messages hms)
      h1 h2 harr hw
    have hmore : ∀ x : ConnEffect, Silent [x] → answers [x] = [] →
        received (l ++ [.read h, x]) = received l ++ [(h, .pending)] ∧
          answers (l ++ [.read h, x]) = answers l := by
      intro x hx hx'
      constructor
      · rw [received_append _ (notDrained_read _ _)]
        have := received_append_silent [.read h] hx
        simpa [received] using this
      · rw [answers, List.filterMap_append]
        show answers l ++ answers [x] = _
        rw [hx', List.append_nil]
    rcases h6 with h6 | ⟨rfl, -, h6⟩
    · subst h6
      exact ⟨seen, _, h3, h4, h5, .inl rfl⟩
    · refine ⟨seen, _, h3, h4, ?_, .inr ⟨rfl, h, .inr rfl, ?_⟩⟩
      · rcases h6 with h6 | h6
        · rw [h6, (hmore .warned (by simp [Silent]) rfl).2]; exact h5
        · rw [h6, (hmore .panicked (by simp [Silent]) rfl).2]; exact h5
      · rcases h6 with h6 | h6
        · rw [h6]; exact (hmore .warned (by simp [Silent]) rfl).1
        · rw [h6]; exact (hmore .panicked (by simp [Silent]) rfl).1
  | @part h t n bs ht hf hb hn =>
    have hlen : (bs ++ List.replicate (n - bs.length) 0).length = n := by
      rw [List.length_append, List.length_replicate]
      omega
    have hfit := fitting_snoc hms ht hf (b := bs ++ List.replicate (n - bs.length) 0) (hlen.symm ▸ hb)
    have hm := fitting_messages hfit
    have hstrict : front ++ (t ++ bs) <+: front ++ (t ++ (bs ++ List.replicate (n - bs.length) 0)) :=
      ⟨List.replicate (n - bs.length) 0, by simp⟩
    obtain ⟨seen, h1, h2, h3⟩ := C104_unread (g := g) cfg es _ _ [] hm noHead_nil
      (by rw [List.append_nil]; exact harr.trans hstrict) hw
    have hne : arriving es ≠ front ++ (t ++ (bs ++ List.replicate (n - bs.length) 0)) := by
      intro he
      rw [he] at harr
      have := harr.length_le
      simp only [List.length_append, List.length_replicate] at this
      omega
    rcases List.prefix_concat_iff.1 h1 with h1 | h1
    · subst h1
      have hl := h2.length_eq
      rw [List.length_append, List.length_singleton] at hl
      obtain ⟨r, x, hx⟩ : ∃ r x, received (connLog cfg es) = r ++ [x] := by
        rcases List.eq_nil_or_concat (received (connLog cfg es)) with h4 | ⟨r, x, h4⟩
        · rw [h4] at hl; simp at hl
        · exact ⟨r, x, by rw [h4, List.concat_eq_append]⟩
      rw [hx, List.length_append, List.length_singleton] at hl
      obtain ⟨h5, h6⟩ := C106_cut_off cfg es _ _ hm (harr.trans hstrict) hne hw r x hx (by simpa using hl)
      rw [hx] at h2
      obtain ⟨h7, h8⟩ : List.Forall₂ (SameRequest g) r ms ∧
          SameRequest g x (h, bs ++ List.replicate (n - bs.length) 0) := by
        have h9 := List.forall₂_iff_get.1 h2
        refine ⟨List.forall₂_iff_get.2 ⟨by omega, fun i a b => ?_⟩, ?_⟩
        · have := h9.2 i (by rw [List.length_append]; omega) (by rw [List.length_append]; omega)
          simpa [List.getElem_append_left, a, b] using this
        · have := h9.2 r.length (by simp) (by simp; omega)
          have e : r.length = ms.length := by omega
          simpa [e] using this
      refine ⟨ms, r, List.prefix_refl _, h7, ?_, .inr ⟨rfl, h, .inl rfl, ?_⟩⟩
      · rw [List.length_append, List.length_singleton] at h6
        omega
      · rw [hx]
        obtain ⟨x1, x2⟩ := x
        obtain ⟨h8, -⟩ := h8
        cases h5
        cases h8
        rfl
    · exact ⟨seen, _, h1, h2, h3, .inl rfl⟩

/-- **C106.** And all the complete requests are answered some time, whatever follows them; if the bytes left
are refused, the connection then ends with a warning, and so it does after a head that does not say where its
body ends. -/
theorem C106_ends (cfg : ServerCfg) (g : ReadBody) (σ : Nat → ConnEvent) (bytes : Bytes)
    (ms : List (ReqHead × Bytes)) (k : Rest) (hk : Splits bytes ms k)
    (hpath : ∀ m ∈ ms, ¬ Pathless cfg m.1) :
    letI := serverWire
    (∃ n, bytes <+: arriving (upTo σ n)) →
    (∀ n, ReadsWhole cfg g .new (upTo σ n)) → (∀ n, Smooth cfg .new (upTo σ n)) → Fair cfg σ →
    (∃ n, AllAnswered ms (connLog cfg (upTo σ n)) ∧
      List.Forall₂ (SameRequest g) (received (connLog cfg (upTo σ n))) ms) ∧
    (k = .refused → ∃ n l, connLog cfg (upTo σ n) = l ++ [.warned] ∧ AllAnswered ms l) ∧
    ∀ h, k = .undelimited h → ¬ Pathless cfg h →
      ∃ n l, connLog cfg (upTo σ n) = l ++ [.read h, .warned] ∧ AllAnswered ms l := by
  let := serverWire
  intro hall hw hs hf
  obtain ⟨front, rest, rfl, hms, hr⟩ := hk
  refine ⟨C84_whatever_follows cfg σ ms front (fitting_messages hms)
    (hall.imp fun _ h => (List.prefix_append _ _).trans h) hw hs hpath hf, ?_, ?_⟩
  · rintro rfl
    cases hr with
    | refused hu he => exact C105_ends cfg g σ ms front rest hms hu he hpath hall hw hs hf
  · rintro h rfl hp
    cases hr with
    | undelimited ht hfit hb =>
      obtain ⟨h1, h2⟩ := undelimited_read ht hfit hb _
      exact C106_undelimited_ends cfg g σ ms front _ h _ (fitting_messages hms) h1 h2 hall hw hs hpath hp hf

end

end Htrpc
