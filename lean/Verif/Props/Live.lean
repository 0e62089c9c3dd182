/-
C84: every request that arrives is answered.
-/
import Verif.Lemmas.Live
import Mathlib.Data.Nat.Find

namespace Htrpc
open Spec

section
variable [FloatText] [UrlText] [JsonText] [Wire] {g : ReadBody}

/-- **C84.** A connection never gets stuck: when complete requests have arrived, and nothing has failed
from outside, then, whatever the history, all requests have been answered completely or the connection
waits for something other than bytes that are not there; and each result it can wait for brings the
exchange forward (something new is observed), once the connection is established. -/
theorem C84_never_stuck (cfg : ServerCfg) (es : List ConnEvent) (ms : List (ReqHead × Bytes))
    (hms : Messages ms (arriving es)) (hw : ReadsWhole cfg g .new es) (hs : Smooth cfg .new es)
    (hpath : ∀ m ∈ ms, ¬ Pathless cfg m.1) (ha : ¬ AllAnswered ms (connLog cfg es)) :
    (∃ e, Awaited (ConnState.run cfg .new es).1 e) ∧
    ∀ e, Awaited (ConnState.run cfg .new es).1 e →
      (∃ x l, connLog cfg (es ++ [e]) = connLog cfg es ++ x :: l) ∨
      ((ConnState.run cfg .new es).1.phase = .connecting ∧
        (ConnState.run cfg .new (es ++ [e])).1.phase = .readHead) := by
  have h := alive (g := g) cfg es ms [] noHead_nil (by rwa [List.append_nil, stream_nil]) hw hpath hs fun _ => rfl
  refine ⟨h.waits.resolve_left ha, fun e he => ?_⟩
  rcases h.forward hpath he with hh | hh | hh
  · exact absurd hh ha
  · left
    obtain ⟨x, l, hx⟩ := List.exists_cons_of_ne_nil hh
    refine ⟨x, l, ?_⟩
    rw [connLog, conn_run_append]
    simp only [ConnState.run, hx, List.append_nil]
  · right
    rw [conn_run_append]
    exact hh

/-- At most five observations for each request, and the end. -/
theorem log_bound (cfg : ServerCfg) (es : List ConnEvent) :
    (connLog cfg es).length ≤ 5 * (reads (connLog cfg es)).length + 1 := by
  obtain ⟨past, cur, hlog, hp, hc⟩ := atConn cfg es
  have hpast : past.length ≤ 5 * (reads past).length := by
    clear hlog hc
    induction hp with
    | nil => simp
    | snoc _ hx ih =>
      rw [reads_append, List.length_append, List.length_append]
      cases hx <;> simp [reads] at * <;> omega
  have hst : ∀ {h l}, Started cfg h l → l.length ≤ 4 ∧ (reads l).length = 1 := by
    intro h l hx
    cases hx <;> simp [reads]
  have hcur : cur.length ≤ 5 * (reads cur).length + 1 := by
    rw [Current] at hc
    split at hc
    · subst hc; simp
    · subst hc; simp
    · obtain ⟨rfl, -⟩ := hc; simp [reads]
    · obtain ⟨rfl, -⟩ := hc; simp [reads]
    · obtain ⟨h, s, v, w, rfl, -⟩ := hc; simp [reads]
    · obtain ⟨h, hs, -⟩ := hc
      have := hst hs
      omega
    · subst hc; simp
    · rcases hc with rfl | ⟨h, l, hs, rfl⟩
      · simp
      · have := hst hs
        rw [reads_append, List.length_append, List.length_append]
        simp only [List.length_singleton]
        omega
    · obtain ⟨h, -, rfl⟩ := hc; simp [reads]
  rw [connLog, hlog, reads_append, List.length_append, List.length_append]
  omega

theorem not_connecting (cfg : ServerCfg) {c : ConnState} (hc : c.phase ≠ .connecting) (e : ConnEvent) :
    (c.step cfg e).1.phase ≠ .connecting := by
  have hr : ∀ (c' : ConnState) v body, (c'.respond v body).1.phase ≠ .connecting := by
    intro c' v body h
    rcases (respond_left c' v body).2.2 with h' | h' | h' <;> rw [h'] at h <;> cases h
  cases e with
  | recv bs => rw [ConnState.step]; split <;> exact hc
  | close k => rw [ConnState.step]; split <;> exact hc
  | notReady => exact hc
  | connected ok =>
    rw [ConnState.step]
    split
    · rename_i hp; exact absurd hp hc
    · exact hc
  | input =>
    rw [ConnState.step]
    split
    · rw [ConnState.pollHead]
      split
      · rename_i hd rest _
        rcases accept_left cfg { c with input := rest } hd with
          ⟨phase, he, ⟨p, rfl⟩ | ⟨s, v, rfl⟩⟩ | ⟨c', he, -⟩ | ⟨c', he, -⟩ <;> rw [he] <;>
            simp [ConnState.fail, ConnState.panic]
      · simp [ConnState.fail]
      · split
        · exact hc
        · simp
        · simp
        · simp [ConnState.fail]
    · rw [ConnState.pollRefusing]
      split
      · simp [ConnState.fail]
      · split
        · exact hr _ _ _
        · simp [ConnState.fail]
        · split
          · exact hc
          · simp [ConnState.fail]
    · exact hc
  | bodyRead w rest =>
    rw [ConnState.step]
    split
    · split
      · exact hc
      · split
        · simp
        · exact hc
    · exact hc
  | bodyFailed =>
    rw [ConnState.step]
    split
    · simp [ConnState.fail]
    · exact hc
  | handled v body =>
    rw [ConnState.step]
    split
    · exact hr _ _ _
    · exact hc
  | written ok =>
    rw [ConnState.step]
    split
    · split
      · simp
      · simp [ConnState.fail]
    · exact hc

omit [FloatText] [UrlText] [JsonText] [Wire] in
theorem arriving_prefix (a b : List ConnEvent) : arriving a <+: arriving (a ++ b) := by
  induction a with
  | nil => exact List.nil_prefix
  | cons e a ih =>
    cases e with
    | recv bs => exact (List.prefix_append_right_inj bs).2 ih
    | close k => exact List.prefix_refl _
    | _ => exact ih

omit [FloatText] [UrlText] [JsonText] [Wire] in
theorem upTo_succ {α : Type} (σ : Nat → α) (n : Nat) : upTo σ (n + 1) = upTo σ n ++ [σ n] := by
  rw [upTo, List.range_succ, List.map_append]; rfl

omit [FloatText] [UrlText] [JsonText] [Wire] in
theorem upTo_le {α : Type} (σ : Nat → α) {n m : Nat} (h : n ≤ m) : ∃ b, upTo σ m = upTo σ n ++ b := by
  obtain ⟨k, rfl⟩ := Nat.exists_eq_add_of_le h
  induction k with
  | zero => exact ⟨[], by simp⟩
  | succ k ih =>
    obtain ⟨b, hb⟩ := ih (Nat.le_add_right _ _)
    refine ⟨b ++ [σ (n + k)], ?_⟩
    rw [← Nat.add_assoc, upTo_succ, hb, List.append_assoc]

/-- How far a connection is. -/
def progress (cfg : ServerCfg) (σ : Nat → ConnEvent) (n : Nat) : Nat :=
  (connLog cfg (upTo σ n)).length +
    match (ConnState.run cfg .new (upTo σ n)).1.phase with
    | .connecting => 0
    | _ => 1

theorem progress_succ (cfg : ServerCfg) (σ : Nat → ConnEvent) (n : Nat) :
    progress cfg σ n ≤ progress cfg σ (n + 1) ∧
    (((ConnState.run cfg .new (upTo σ n)).1.step cfg (σ n)).2 ≠ [] ∨
      ((ConnState.run cfg .new (upTo σ n)).1.phase = .connecting ∧
        ((ConnState.run cfg .new (upTo σ n)).1.step cfg (σ n)).1.phase = .readHead) →
      progress cfg σ n < progress cfg σ (n + 1)) := by
  rw [progress, progress, upTo_succ, connLog, connLog, conn_run_append]
  generalize ConnState.run cfg .new (upTo σ n) = x
  obtain ⟨c, log⟩ := x
  simp only [ConnState.run, List.append_nil, List.length_append]
  have hn := fun h => not_connecting cfg (c := c) h (σ n)
  generalize c.step cfg (σ n) = y at hn ⊢
  obtain ⟨c', effs⟩ := y
  simp only at hn ⊢
  constructor
  · split
    · split <;> omega
    · rename_i h1
      split
      · rename_i h2; exact absurd h2 (hn fun h => h1 h)
      · omega
  · rintro (h | ⟨h, h'⟩)
    · have := List.length_pos_iff.2 h
      split
      · split <;> omega
      · rename_i h1
        split
        · rename_i h2; exact absurd h2 (hn fun h => h1 h)
        · omega
    · rw [h, h']
      simp only
      omega

theorem all_answered_some_time (cfg : ServerCfg) (σ : Nat → ConnEvent) (ms : List (ReqHead × Bytes))
    (bytes : Bytes) (hms : Messages ms bytes) (hall : ∃ n, bytes <+: arriving (upTo σ n))
    (hw : ∀ n, ReadsWhole cfg g .new (upTo σ n))
    (hs : ∀ n, Smooth cfg .new (upTo σ n)) (hpath : ∀ m ∈ ms, ¬ Pathless cfg m.1)
    (hfair : Fair cfg σ) : ∃ n, AllAnswered ms (connLog cfg (upTo σ n)) := by
  refine Classical.byContradiction fun hno => ?_
  have hno' : ∀ n, ¬ AllAnswered ms (connLog cfg (upTo σ n)) := fun n h => hno ⟨n, h⟩
  obtain ⟨N, hN⟩ := hall
  have halive : ∀ n, N ≤ n → ∃ junk, Alive cfg g junk ms (ConnState.run cfg .new (upTo σ n)).1
      (connLog cfg (upTo σ n)) [] := by
    intro n hn
    obtain ⟨b, hb⟩ := upTo_le σ hn
    obtain ⟨junk, hjunk⟩ := hN.trans (hb ▸ arriving_prefix (upTo σ N) b)
    refine ⟨junk, alive_until cfg _ ms [] ?_ (hw n) hpath (hs n) (fun _ => rfl) (.inr fun es' hes' => ?_)⟩
    · rw [List.append_nil, ← hjunk]
      exact ⟨bytes, rfl, hms⟩
    · have he : es' = upTo σ es'.length := by
        have h1 : es'.length ≤ n := by
          have := hes'.length_le
          rwa [upTo, List.length_map, List.length_range] at this
        obtain ⟨b, hb⟩ := upTo_le σ h1
        rw [hb] at hes'
        exact (List.prefix_of_prefix_length_le hes' ⟨b, rfl⟩ (by simp [upTo])).eq_of_length (by simp [upTo])
      rw [he]
      exact hno' _
  have hbound : ∀ n, N ≤ n → progress cfg σ n ≤ 5 * ms.length + 2 := by
    intro n hn
    obtain ⟨junk, hal⟩ := halive n hn
    obtain ⟨seen, left, h1, h2, -⟩ := hal.sync
    have h3 : (reads (connLog cfg (upTo σ n))).length ≤ ms.length := by
      rw [← received_reads, same_heads h2, h1]
      simp
    have := log_bound cfg (upTo σ n)
    rw [progress]
    split <;> omega
  have hmono : ∀ n m, n ≤ m → progress cfg σ n ≤ progress cfg σ m := by
    intro n m hnm
    induction hnm with
    | refl => exact Nat.le_refl _
    | step _ ih => exact Nat.le_trans ih (progress_succ cfg σ _).1
  have hgrow : ∀ k, ∃ n, N ≤ n ∧ k ≤ progress cfg σ n := by
    intro k
    induction k with
    | zero => exact ⟨N, Nat.le_refl _, Nat.zero_le _⟩
    | succ k ih =>
      obtain ⟨n, hn, hk⟩ := ih
      obtain ⟨_, hal⟩ := halive n hn
      obtain ⟨m, hm, ha⟩ := hfair n (hal.waits.resolve_left (hno' n))
      have hNm := Nat.le_trans hn hm
      obtain ⟨_, hal'⟩ := halive m hNm
      have ha := ha.resolve_right fun h => h (hal'.waits.resolve_left (hno' m))
      refine ⟨m + 1, Nat.le_succ_of_le hNm, ?_⟩
      have h1 := (progress_succ cfg σ m).2 ((hal'.forward hpath ha).resolve_left (hno' m))
      have h2 := hmono n m hm
      omega
  obtain ⟨n, hn, hk⟩ := hgrow (5 * ms.length + 3)
  have := hbound n hn
  omega

/-- **C84.** Every request is answered, whatever arrives after it: if complete requests have arrived,
nothing fails from outside, and what a connection waits for happens some time, then there comes a time when
just these requests have been read, with their bodies, and all their responses have been written completely. -/
theorem C84_whatever_follows (cfg : ServerCfg) (σ : Nat → ConnEvent) (ms : List (ReqHead × Bytes))
    (bytes : Bytes) (hms : Messages ms bytes) (hall : ∃ n, bytes <+: arriving (upTo σ n))
    (hw : ∀ n, ReadsWhole cfg g .new (upTo σ n))
    (hs : ∀ n, Smooth cfg .new (upTo σ n)) (hpath : ∀ m ∈ ms, ¬ Pathless cfg m.1)
    (hfair : Fair cfg σ) :
    ∃ n, AllAnswered ms (connLog cfg (upTo σ n)) ∧
      List.Forall₂ (SameRequest g) (received (connLog cfg (upTo σ n))) ms := by
  classical
  have hex := all_answered_some_time (g := g) cfg σ ms bytes hms hall hw hs hpath hfair
  obtain ⟨n, hn, hmin⟩ : ∃ n, AllAnswered ms (connLog cfg (upTo σ n)) ∧
      ∀ m, m < n → ¬ AllAnswered ms (connLog cfg (upTo σ m)) :=
    ⟨Nat.find hex, Nat.find_spec hex, fun _ => Nat.find_min hex⟩
  refine ⟨n, hn, ?_⟩
  obtain ⟨N, hN⟩ := hall
  obtain ⟨b, hb⟩ := upTo_le σ (Nat.le_max_left n N)
  obtain ⟨tail, htail⟩ := hb ▸ arriving_prefix (upTo σ n) b
  obtain ⟨b', hb'⟩ := upTo_le σ (Nat.le_max_right n N)
  obtain ⟨junk, hjunk⟩ := hN.trans (hb' ▸ arriving_prefix (upTo σ N) b')
  have h0 : Sync g junk ms .new [] (toCome .new (upTo σ n) tail) := by
    refine ⟨[], ms, rfl, .nil, ?_⟩
    show Stream junk ms ([] ++ toCome .new (upTo σ n) tail)
    rw [show toCome .new (upTo σ n) tail = arriving (upTo σ n) ++ tail from rfl, htail, ← hjunk]
    exact ⟨bytes, rfl, hms⟩
  obtain ⟨seen, left, h1, h2, -⟩ := h0.run_until _ (.new cfg) (hw n) fun a e c he => by
    have hlen : a.length < n := by
      have := congrArg List.length he
      rw [upTo, List.length_map, List.length_range, List.length_append, List.length_cons] at this
      omega
    have ha : a = upTo σ a.length := by
      obtain ⟨b, hb⟩ := upTo_le σ (Nat.le_of_lt hlen)
      rw [hb] at he
      exact (List.append_inj_left he (by simp [upTo])).symm
    rw [List.nil_append, ha]
    exact hmin _ hlen
  have h3 : seen = ms := by
    have h4 := congrArg List.length (same_heads h2)
    rw [received_reads, List.nil_append] at h4
    change (reads (connLog cfg (upTo σ n))).length = _ at h4
    rw [hn.1, List.length_map, List.length_map, h1, List.length_append] at h4
    rw [h1, List.length_eq_zero_iff.1 (show left.length = 0 by omega), List.append_nil]
  rw [← h3]
  exact h2

/-- **C84.** So if no more than these requests arrive, all are answered. -/
theorem C84_all_answered (cfg : ServerCfg) (σ : Nat → ConnEvent) (ms : List (ReqHead × Bytes))
    (bytes : Bytes) (hms : Messages ms bytes)
    (hall : ∃ n, arriving (upTo σ n) = bytes) (hw : ∀ n, ReadsWhole cfg g .new (upTo σ n))
    (hs : ∀ n, Smooth cfg .new (upTo σ n)) (hpath : ∀ m ∈ ms, ¬ Pathless cfg m.1)
    (hfair : Fair cfg σ) : ∃ n, AllAnswered ms (connLog cfg (upTo σ n)) := by
  obtain ⟨n, hn⟩ := hall
  exact all_answered_some_time (g := g) cfg σ ms bytes hms ⟨n, hn ▸ List.prefix_refl _⟩ hw hs hpath hfair

end

end Htrpc
