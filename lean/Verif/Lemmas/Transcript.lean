/-
What follows from the transcript of a connection.
-/
import Verif.Lemmas.Server

namespace Htrpc
open Spec

/-! ### Logs in general -/

theorem reads_append (a b : List ConnEffect) : reads (a ++ b) = reads a ++ reads b :=
  List.filterMap_append

theorem answers_append (a b : List ConnEffect) : answers (a ++ b) = answers a ++ answers b :=
  List.filterMap_append

theorem calls_append (a b : List ConnEffect) : calls (a ++ b) = calls a ++ calls b :=
  List.filterMap_append

theorem writtenCount_append (a b : List ConnEffect) :
    writtenCount (a ++ b) = writtenCount a + writtenCount b := by
  simp [writtenCount]

/-- Neither a request read nor an end. -/
def Inner (l : List ConnEffect) : Prop := ∀ e ∈ l, (!isRead e && !isFinal e) = true

/-- The list does not continue a block. -/
def Fresh (l : List ConnEffect) : Prop :=
  l.takeWhile (fun e => !isRead e && !isFinal e) = []

theorem blocks_inner {l : List ConnEffect} (hl : Inner l) (rest : List ConnEffect) :
    blocks (l ++ rest) = blocks rest := by
  induction l with
  | nil => rfl
  | cons e l ih =>
    have he := hl e List.mem_cons_self
    have := ih fun e h => hl e (List.mem_cons_of_mem _ h)
    cases e with
    | read h => exact absurd he (by simp [isRead])
    | _ => exact this

theorem blocks_cons {l rest : List ConnEffect} (h : ReqHead) (hl : Inner l) (hr : Fresh rest) :
    blocks (.read h :: l ++ rest) = (h, l) :: blocks rest := by
  rw [List.cons_append, blocks, blocks_inner hl, List.takeWhile_append_of_pos hl, hr,
    List.append_nil]

theorem blocks_reads (log : List ConnEffect) : (blocks log).map Prod.fst = reads log := by
  induction log with
  | nil => rfl
  | cons e log ih =>
    cases e with
    | read h =>
      rw [blocks, List.map_cons, ih]
      rfl
    | _ => exact ih

theorem fresh_warned : Fresh [.warned] := by simp [Fresh, isFinal]

/-- Prefixes of the parts. -/
theorem prefix_append {α : Type} {p a b : List α} (h : p <+: a ++ b) :
    p <+: a ∨ ∃ q, q <+: b ∧ p = a ++ q := by
  obtain ⟨t, ht⟩ := h
  rcases List.append_eq_append_iff.1 ht with ⟨x, h1, h2⟩ | ⟨x, h1, h2⟩
  · exact .inl ⟨x, h1.symm⟩
  · exact .inr ⟨x, ⟨t, h2.symm⟩, h1⟩

theorem prefixes_cons {α : Type} {P : List α → Prop} {a : α} {l : List α} (h0 : P [])
    (h : ∀ p, p <+: l → P (a :: p)) : ∀ p, p <+: a :: l → P p := by
  intro p hp
  cases p with
  | nil => exact h0
  | cons b p =>
    rw [List.cons_prefix_cons] at hp
    obtain ⟨rfl, hp⟩ := hp
    exact h p hp

theorem prefixes_nil {α : Type} {P : List α → Prop} (h0 : P []) : ∀ p, p <+: [] → P p := by
  intro p hp
  rw [List.prefix_nil] at hp
  subst hp; exact h0

section
variable [FloatText] [UrlText] [JsonText]

theorem Spec.Exchange.shape {cfg : ServerCfg} {h : ReqHead} {l : List ConnEffect}
    (hx : Exchange cfg h l) : ∃ l', l = .read h :: l' ∧ Inner l' := by
  cases hx with
  | refused => exact ⟨_, rfl, by simp [Inner, isRead, isFinal]⟩
  | served => exact ⟨_, rfl, by simp [Inner, isRead, isFinal]⟩

theorem Spec.Started.shape {cfg : ServerCfg} {h : ReqHead} {l : List ConnEffect}
    (hx : Started cfg h l) : ∃ l', l = .read h :: l' ∧ Inner l' := by
  cases hx <;> exact ⟨_, rfl, by simp [Inner, isRead, isFinal]⟩

theorem Spec.Transcript.fresh {cfg : ServerCfg} {log : List ConnEffect} (ht : Transcript cfg log) :
    Fresh log := by
  cases ht with
  | exchange hx _ => obtain ⟨l, rfl, -⟩ := hx.shape; simp [Fresh, isRead]
  | idle => rfl
  | finished => simp [Fresh, isFinal]
  | failed => simp [Fresh, isFinal]
  | started hx => obtain ⟨l, rfl, -⟩ := hx.shape; simp [Fresh, isRead]
  | broken hx => obtain ⟨l, rfl, -⟩ := hx.shape; simp [Fresh, isRead]
  | panicked => simp [Fresh, isRead]

/-- The blocks of a transcript are exchanges, except that the last one may be unfinished. -/
theorem Spec.Transcript.blocks {cfg : ServerCfg} {log : List ConnEffect}
    (ht : Transcript cfg log) : ∀ i h l, (blocks log)[i]? = some (h, l) →
      Exchange cfg h (.read h :: l) ∨
        (Started cfg h (.read h :: l) ∧ i + 1 = (blocks log).length) := by
  induction ht with
  | @exchange h l rest hx ht ih =>
    obtain ⟨l, rfl, hl⟩ := hx.shape
    rw [blocks_cons h hl ht.fresh]
    intro i h' l' hi
    cases i with
    | zero => cases hi; exact .inl hx
    | succ i =>
      rcases ih i h' l' hi with h1 | ⟨h1, h2⟩
      · exact .inl h1
      · exact .inr ⟨h1, by rw [List.length_cons, h2]⟩
  | idle => intro i h l hi; cases hi
  | finished => intro i h l hi; cases hi
  | failed => intro i h l hi; cases hi
  | @started h l hx =>
    obtain ⟨l, rfl, hl⟩ := hx.shape
    have := blocks_cons (rest := []) h hl rfl
    rw [List.append_nil] at this
    rw [this]
    intro i h' l' hi
    cases i with
    | zero => cases hi; exact .inr ⟨hx, rfl⟩
    | succ i => cases hi
  | @broken h l hx =>
    obtain ⟨l, rfl, hl⟩ := hx.shape
    rw [blocks_cons h hl fresh_warned]
    intro i h' l' hi
    cases i with
    | zero => cases hi; exact .inr ⟨hx, rfl⟩
    | succ i => cases hi
  | @panicked h hp =>
    have := blocks_cons (rest := [.panicked]) (l := []) h (by simp [Inner]) (by simp [Fresh, isFinal])
    rw [show [ConnEffect.read h, .panicked] = [.read h] ++ [.panicked] from rfl, this]
    intro i h' l' hi
    cases i with
    | zero => cases hi; exact .inr ⟨.read, rfl⟩
    | succ i => cases hi

/-- One response at a time. -/
def Orderly (p : List ConnEffect) : Prop :=
  writtenCount p ≤ (answers p).length ∧ (answers p).length ≤ (reads p).length ∧
    (reads p).length ≤ writtenCount p + 1

theorem Spec.Exchange.orderly {cfg : ServerCfg} {h : ReqHead} {l : List ConnEffect}
    (hx : Exchange cfg h l) : ∀ p, p <+: l → Orderly p := by
  cases hx with
  | refused =>
    refine prefixes_cons ?_ (prefixes_cons (P := fun p => Orderly (_ :: p)) ?_
      (prefixes_cons (P := fun p => Orderly (_ :: _ :: p)) ?_
      (prefixes_cons (P := fun p => Orderly (_ :: _ :: _ :: p)) ?_
      (prefixes_nil (P := fun p => Orderly (_ :: _ :: _ :: _ :: p)) ?_)))) <;>
    simp [Orderly, writtenCount, answers, reads]
  | served =>
    refine prefixes_cons ?_ (prefixes_cons (P := fun p => Orderly (_ :: p)) ?_
      (prefixes_cons (P := fun p => Orderly (_ :: _ :: p)) ?_
      (prefixes_cons (P := fun p => Orderly (_ :: _ :: _ :: p)) ?_
      (prefixes_cons (P := fun p => Orderly (_ :: _ :: _ :: _ :: p)) ?_
      (prefixes_nil (P := fun p => Orderly (_ :: _ :: _ :: _ :: _ :: p)) ?_))))) <;>
    simp [Orderly, writtenCount, answers, reads]

theorem Spec.Started.orderly {cfg : ServerCfg} {h : ReqHead} {l : List ConnEffect}
    (hx : Started cfg h l) : ∀ p, p <+: l ++ [.warned] → Orderly p := by
  cases hx with
  | read =>
    refine prefixes_cons ?_ (prefixes_cons (P := fun p => Orderly (_ :: p)) ?_
      (prefixes_nil (P := fun p => Orderly (_ :: _ :: p)) ?_)) <;>
    simp [Orderly, writtenCount, answers, reads]
  | refusing =>
    refine prefixes_cons ?_ (prefixes_cons (P := fun p => Orderly (_ :: p)) ?_
      (prefixes_cons (P := fun p => Orderly (_ :: _ :: p)) ?_
      (prefixes_cons (P := fun p => Orderly (_ :: _ :: _ :: p)) ?_
      (prefixes_nil (P := fun p => Orderly (_ :: _ :: _ :: _ :: p)) ?_)))) <;>
    simp [Orderly, writtenCount, answers, reads]
  | invoked =>
    refine prefixes_cons ?_ (prefixes_cons (P := fun p => Orderly (_ :: p)) ?_
      (prefixes_cons (P := fun p => Orderly (_ :: _ :: p)) ?_
      (prefixes_nil (P := fun p => Orderly (_ :: _ :: _ :: p)) ?_))) <;>
    simp [Orderly, writtenCount, answers, reads]
  | returned =>
    refine prefixes_cons ?_ (prefixes_cons (P := fun p => Orderly (_ :: p)) ?_
      (prefixes_cons (P := fun p => Orderly (_ :: _ :: p)) ?_
      (prefixes_cons (P := fun p => Orderly (_ :: _ :: _ :: p)) ?_
      (prefixes_nil (P := fun p => Orderly (_ :: _ :: _ :: _ :: p)) ?_)))) <;>
    simp [Orderly, writtenCount, answers, reads]
  | serving =>
    refine prefixes_cons ?_ (prefixes_cons (P := fun p => Orderly (_ :: p)) ?_
      (prefixes_cons (P := fun p => Orderly (_ :: _ :: p)) ?_
      (prefixes_cons (P := fun p => Orderly (_ :: _ :: _ :: p)) ?_
      (prefixes_cons (P := fun p => Orderly (_ :: _ :: _ :: _ :: p)) ?_
      (prefixes_nil (P := fun p => Orderly (_ :: _ :: _ :: _ :: _ :: p)) ?_))))) <;>
    simp [Orderly, writtenCount, answers, reads]

/-- A finished exchange: one request, one response. -/
theorem Spec.Exchange.counts {cfg : ServerCfg} {h : ReqHead} {l : List ConnEffect}
    (hx : Exchange cfg h l) : reads l = [h] ∧ (answers l).length = 1 ∧ writtenCount l = 1 := by
  cases hx <;> exact ⟨rfl, rfl, rfl⟩

theorem Spec.Transcript.orderly {cfg : ServerCfg} {log : List ConnEffect}
    (ht : Transcript cfg log) : ∀ p, p <+: log → Orderly p := by
  have h0 : Orderly [] := by simp [Orderly, writtenCount, answers, reads]
  induction ht with
  | @exchange h l rest hx ht ih =>
    intro p hp
    rcases prefix_append hp with hp | ⟨q, hq, rfl⟩
    · exact hx.orderly p hp
    · obtain ⟨h1, h2, h3⟩ := hx.counts
      obtain ⟨h4, h5, h6⟩ := ih q hq
      refine ⟨?_, ?_, ?_⟩
      · rw [writtenCount_append, answers_append, List.length_append]; omega
      · rw [answers_append, reads_append, List.length_append, List.length_append, h1]
        simp only [List.length_singleton]; omega
      · rw [writtenCount_append, reads_append, List.length_append, h1]
        simp only [List.length_singleton]; omega
  | idle => exact prefixes_nil h0
  | finished =>
    refine prefixes_cons ?_ (prefixes_nil (P := fun p => Orderly (_ :: p)) ?_) <;>
    simp [Orderly, writtenCount, answers, reads]
  | failed =>
    refine prefixes_cons ?_ (prefixes_nil (P := fun p => Orderly (_ :: p)) ?_) <;>
    simp [Orderly, writtenCount, answers, reads]
  | started hx => intro p hp; exact hx.orderly p (hp.trans (List.prefix_append _ _))
  | broken hx => exact hx.orderly
  | panicked =>
    refine prefixes_cons ?_ (prefixes_cons (P := fun p => Orderly (_ :: p)) ?_
      (prefixes_nil (P := fun p => Orderly (_ :: _ :: p)) ?_)) <;>
    simp [Orderly, writtenCount, answers, reads]

/-- The answers are those in the blocks, by position. -/
theorem Spec.Transcript.nth {cfg : ServerCfg} {log : List ConnEffect} (ht : Transcript cfg log) :
    ∀ (i : Nat) (r : Response), (answers log)[i]? = some r →
      ∃ h l, (Spec.blocks log)[i]? = some (h, l) ∧ answers l = [r] := by
  have tail : ∀ {h l} (rest : List ConnEffect), Started cfg h l → Fresh rest → answers rest = [] →
      ∀ (i : Nat) (r : Response), (answers (l ++ rest))[i]? = some r →
        ∃ h' l', (Spec.blocks (l ++ rest))[i]? = some (h', l') ∧ answers l' = [r] := by
    intro h l rest hx hf ha i r hi
    rw [answers_append, ha, List.append_nil] at hi
    have hr : i = 0 ∧ answers l = [r] := by
      cases hx <;> simp only [answers, List.filterMap] at hi ⊢ <;> cases i <;> cases hi <;>
        exact ⟨rfl, rfl⟩
    obtain ⟨rfl, hr⟩ := hr
    obtain ⟨l, rfl, hl⟩ := hx.shape
    rw [blocks_cons h hl hf]
    exact ⟨h, l, rfl, hr⟩
  induction ht with
  | @exchange h l rest hx ht ih =>
    obtain ⟨h1, h2, -⟩ := hx.counts
    obtain ⟨l, rfl, hl⟩ := hx.shape
    rw [blocks_cons h hl ht.fresh]
    obtain ⟨r0, hr0⟩ := List.length_eq_one_iff.1 h2
    intro i r hi
    rw [answers_append, hr0] at hi
    cases i with
    | zero => cases hi; exact ⟨h, l, rfl, hr0⟩
    | succ i => exact ih i r hi
  | idle => intro i r hi; cases hi
  | finished => intro i r hi; cases hi
  | failed => intro i r hi; cases hi
  | started hx => simpa using tail [] hx rfl rfl
  | broken hx => exact tail [.warned] hx fresh_warned rfl
  | panicked => intro i r hi; cases hi

omit [JsonText] in
theorem wanted_of_judged {cfg : ServerCfg} {h : ReqHead} {d : Verdict} (hj : Judged cfg h d) :
    wanted cfg h = match d with
      | .refuse _ => none
      | .call s v => some (s, v) := by
  cases hj with
  | noUrl h1 => simp [wanted, h1]
  | noPath h1 h2 h3 => simp [wanted, h1, h2, h3]
  | noMethod h1 h2 h3 => simp [wanted, h1, h2, h3]
  | undecodable h1 h2 h3 h4 =>
    simp only [wanted, h1, h2, h3, Option.bind_eq_bind, Option.bind_some]
  | call h1 h2 h3 h4 => simp [wanted, h1, h2, h3, h4]

/-- The calls of handlers are those wanted; at most that for the last request is outstanding. -/
theorem Spec.Transcript.calls {cfg : ServerCfg} {log : List ConnEffect} (ht : Transcript cfg log) :
    ∃ rest, (reads log).filterMap (wanted cfg) =
        (Spec.calls log).map (fun c => (c.1, c.2.1)) ++ rest ∧ rest.length ≤ 1 ∧
      (rest ≠ [] → (answers log).length < (reads log).length) := by
  have tail : ∀ {h l} (rest : List ConnEffect), Started cfg h l → answers rest = [] →
      reads rest = [] → Spec.calls rest = [] →
      ∃ out, (reads (l ++ rest)).filterMap (wanted cfg) =
        (Spec.calls (l ++ rest)).map (fun c => (c.1, c.2.1)) ++ out ∧ out.length ≤ 1 ∧
      (out ≠ [] → (answers (l ++ rest)).length < (reads (l ++ rest)).length) := by
    intro h l rest hx h1 h2 h3
    rw [reads_append, answers_append, calls_append, h1, h2, h3]
    simp only [List.append_nil]
    cases hx with
    | read =>
      refine ⟨(wanted cfg h).toList, ?_, ?_, fun _ => Nat.zero_lt_one⟩
      · simp only [reads, Spec.calls, List.filterMap]
        cases wanted cfg h <;> rfl
      · cases wanted cfg h <;> simp
    | refusing hj _ =>
      refine ⟨[], ?_, by simp, by simp⟩
      have := wanted_of_judged hj
      simp only [reads, Spec.calls, List.filterMap, this]
      rfl
    | invoked hj =>
      refine ⟨[], ?_, by simp, by simp⟩
      have := wanted_of_judged hj
      simp only [reads, Spec.calls, List.filterMap, this]
      rfl
    | returned hj =>
      refine ⟨[], ?_, by simp, by simp⟩
      have := wanted_of_judged hj
      simp only [reads, Spec.calls, List.filterMap, this]
      rfl
    | serving hj _ =>
      refine ⟨[], ?_, by simp, by simp⟩
      have := wanted_of_judged hj
      simp only [reads, Spec.calls, List.filterMap, this]
      rfl
  induction ht with
  | @exchange h l rest hx ht ih =>
    obtain ⟨out, h1, h2, h3⟩ := ih
    obtain ⟨h4, h5, -⟩ := hx.counts
    have hc : [h].filterMap (wanted cfg) = (Spec.calls l).map (fun c => (c.1, c.2.1)) := by
      cases hx with
      | refused hj _ =>
        have := wanted_of_judged hj
        simp only [Spec.calls, List.filterMap, this]
        rfl
      | served hj _ =>
        have := wanted_of_judged hj
        simp only [Spec.calls, List.filterMap, this]
        rfl
    refine ⟨out, ?_, h2, fun ho => ?_⟩
    · rw [reads_append, h4, List.filterMap_append, hc, h1, calls_append, List.map_append,
        List.append_assoc]
    · have := h3 ho
      rw [reads_append, answers_append, List.length_append, List.length_append, h4, h5]
      simp only [List.length_singleton]; omega
  | idle => exact ⟨[], rfl, by simp, by simp⟩
  | finished => exact ⟨[], rfl, by simp, by simp⟩
  | failed => exact ⟨[], rfl, by simp, by simp⟩
  | started hx => simpa using tail [] hx rfl rfl rfl
  | broken hx => exact tail [.warned] hx rfl rfl rfl
  | @panicked h hp =>
    exact tail [.panicked] (.read : Started cfg h [.read h]) rfl rfl rfl

theorem Spec.Transcript.final {cfg : ServerCfg} {log : List ConnEffect} (ht : Transcript cfg log) :
    ∀ a e b, log = a ++ e :: b → isFinal e = true → b = [] := by
  have last : ∀ {l : List ConnEffect} {z a e b}, (∀ x ∈ l, isFinal x = false) →
      l ++ z = a ++ e :: b → isFinal e = true → ∃ a', z = a' ++ e :: b := by
    intro l z a e b hl h he
    rcases List.append_eq_append_iff.1 h with ⟨x, h1, h2⟩ | ⟨x, h1, h2⟩
    · exact ⟨x, h2⟩
    · cases x with
      | nil => exact ⟨[], by simpa using h2.symm⟩
      | cons y x =>
        simp only [List.cons_append, List.cons.injEq] at h2
        obtain ⟨rfl, -⟩ := h2
        have := hl e (by rw [h1]; simp)
        rw [he] at this
        cases this
  have single : ∀ {x : ConnEffect} {a e b}, [x] = a ++ e :: b → b = [] := by
    intro x a e b h
    cases a with
    | nil => cases h; rfl
    | cons y a => simp at h
  have inner : ∀ {h : ReqHead} {l : List ConnEffect}, Inner l → ∀ x ∈ .read h :: l,
      isFinal x = false := by
    intro h l hl x hx
    rcases List.mem_cons.1 hx with rfl | hx
    · rfl
    · have := hl x hx; simp at this; exact this.2
  induction ht with
  | @exchange h l rest hx ht ih =>
    intro a e b hl he
    obtain ⟨l, rfl, hi⟩ := hx.shape
    obtain ⟨a', ha⟩ := last (inner hi) hl he
    exact ih a' e b ha he
  | idle => intro a e b h; simp at h
  | finished => intro a e b h _; exact single h
  | failed => intro a e b h _; exact single h
  | started hx =>
    intro a e b hl he
    obtain ⟨l, rfl, hi⟩ := hx.shape
    have := inner hi e (by rw [hl]; simp)
    rw [he] at this; cases this
  | broken hx =>
    intro a e b hl he
    obtain ⟨l, rfl, hi⟩ := hx.shape
    obtain ⟨a', ha⟩ := last (inner hi) hl he
    exact single ha
  | @panicked h hp =>
    intro a e b hl he
    obtain ⟨a', ha⟩ := last (l := [.read h]) (z := [.panicked]) (by simp [isFinal]) hl he
    exact single ha

end

end Htrpc
