/-
Calls come to an end (C80).
-/
import Verif.Lemmas.Progress
import Verif.Props.Turns

namespace Htrpc
open Spec

section
variable [FloatText]

theorem sys_run_append (evs evs' : List SysEvent) (s : Sys) :
    Sys.run (evs ++ evs') s =
      ((Sys.run evs s).1 ++ (Sys.run evs' (Sys.run evs s).2).1,
        (Sys.run evs' (Sys.run evs s).2).2) := by
  induction evs generalizing s with
  | nil => rfl
  | cons e es ih => simp only [List.cons_append, Sys.run, ih, List.append_assoc]

theorem run_then (evs : List SysEvent) (e : SysEvent) (evs' : List SysEvent) (s : Sys) :
    (Sys.run (evs ++ e :: evs') s).2 = (Sys.run evs' ((Sys.run evs s).2.step e).2).2 := by
  rw [sys_run_append]; rfl

theorem reached_run_poll {s : Sys} {i n : Nat} (h : s.Reached i n) (evs : List SysEvent)
    (r : IoResult) (evs' : List SysEvent) :
    (Sys.run (evs ++ .poll i r :: evs') s).2 =
        (Sys.run evs' ((Sys.run evs s).2.step (.poll i r)).2).2 ∧
      ((Sys.run evs s).2.step (.poll i r)).2.Reached i (goal r n) :=
  ⟨run_then .., reached_poll (reached_run h evs) r⟩

/-- **C80.** A call ends, however it is interleaved with other calls and whatever happens to the pool:
once the pool has handled the commands that were in its queue and the network has answered the four
questions of the call (connected, request written, head read, body read), it is finished.  No other
event can throw it back. -/
theorem C80_finishes (size : Nat) (evs e₀ e₁ e₂ e₃ e₄ : List SysEvent) (i : Nat)
    (code : Nat) (hs : List Header) (b : Bytes)
    (hi : i < (Sys.run evs (.new size)).2.calls.length)
    (hn : (Sys.run evs (.new size)).2.queue.length ≤ handles e₀) :
    ∃ y, (Sys.run (evs ++ e₀ ++ .poll i .connected :: (e₁ ++ .poll i .written ::
        (e₂ ++ .poll i (.head code hs) :: (e₃ ++ .poll i (.body b) :: e₄)))) (.new size)).2.calls[i]? =
          some y ∧ Finished y.st := by
  rw [run_then]
  -- the first result
  have h1 : ((Sys.run (evs ++ e₀) (.new size)).2.step (.poll i .connected)).2.Reached i 2 := by
    have hr : (Sys.run (evs ++ e₀) (.new size)).2.Reached i 0 := by
      rw [sys_run_append]; exact reached_run (reached_new size evs i hi) e₀
    obtain ⟨y, m, hy, hm, -⟩ := hr
    by_cases h0 : 1 ≤ m
    · exact reached_poll (n := 1) ⟨y, m, hy, hm, h0⟩ .connected
    · obtain ⟨p, a, st⟩ := y
      have hst : ∃ inner, st = .waiting inner := by
        cases st with
        | waiting inner => exact ⟨inner, rfl⟩
        | replied inner f =>
          simp only [stage] at hm
          split at hm <;> cases hm
          omega
        | active c inner =>
          simp only [stage] at hm
          split at hm <;> cases hm <;> omega
        | done v b => cases hm; omega
        | failed k => cases hm; omega
        | panicked => cases hm; omega
        | dropped => cases hm; omega
      obtain ⟨inner, rfl⟩ := hst
      have hp : (Sys.run (evs ++ e₀) (.new size)).2.pool = none := by
        have hy' := hy
        rw [sys_run_append] at hy' ⊢
        exact C53_answered size evs e₀ i _ inner hi hn hy' rfl
      refine ⟨⟨p, a, .failed .other⟩, 5, ?_, rfl, by omega⟩
      simp only [Sys.step]
      rw [poll_calls _ i .connected _ hy, hp]
      exact set_get_self hy
  obtain ⟨q1, h2⟩ := reached_run_poll h1 e₁ .written
    (e₂ ++ .poll i (.head code hs) :: (e₃ ++ .poll i (.body b) :: e₄))
  rw [q1]
  obtain ⟨q2, h3⟩ := reached_run_poll h2 e₂ (.head code hs) (e₃ ++ .poll i (.body b) :: e₄)
  rw [q2]
  obtain ⟨q3, h4⟩ := reached_run_poll h3 e₃ (.body b) e₄
  rw [q3]
  obtain ⟨y, m, hy, hm, hl⟩ := reached_run h4 e₄
  refine ⟨y, hy, ?_⟩
  have hl : 5 ≤ m := hl
  generalize y.st = st at hm
  unfold stage at hm
  split at hm
  · split at hm <;> cases hm; omega
  · split at hm <;> cases hm; omega
  · split at hm <;> cases hm <;> omega
  · cases st <;> simp_all [Finished]

/-- The way of a call that succeeds. -/
inductive Path (p : Proc) (v : Val) (body : Bytes) (r : Request) (code : Nat) (hs : List Header)
    (w : Val) (b : Bytes) : Nat → PCallSt → Prop where
  | ready {f} : f ≠ .failed → Path p v body r code hs w b 1 (.replied (.new v body) f)
  | write {c} : Path p v body r code hs w b 2 (.active c ⟨none, .write r⟩)
  | readHead {c} : Path p v body r code hs w b 3 (.active c ⟨none, .readHead⟩)
  | readBody {c} : p.method ≠ .head →
      Path p v body r code hs w b 4 (.active c ⟨none, .readBody code hs⟩)
  | done : Path p v body r code hs w b 5 (.done w (if p.method = .head then [] else b))

theorem path_poll {p : Proc} {v : Val} {body : Bytes} {r : Request} {code : Nat} {hs : List Header}
    {w : Val} {b : Bytes} {n : Nat} {st : PCallSt}
    (hr : serRequest p.method p.entry v body = .ok r) (hw : deResponse p.resTy code hs = .ok w)
    (h : Path p v body r code hs w b n st) (x : IoResult)
    (hx : x = .notReady ∨ x = .connected ∨ x = .written ∨ x = .head code hs ∨ x = .body b)
    (alive : Bool) (next : Conn) :
    ∃ m, Path p v body r code hs w b m (polled alive next p x st) ∧ goal x n ≤ m := by
  have conn : ∀ c, settled c (.new v body) (callStep p (.new v body) .connected) =
      .active c ⟨none, .write r⟩ := by
    intro c; simp [callStep, CallInner.new, hr, settled]
  have dec : ∀ c inner b, settled c inner (callDecode p code hs b) = .done w b := by
    intro c inner b; simp [callDecode, hw, settled]
  cases h with
  | ready hf =>
    rename_i f
    have g : goal x 1 ≤ 2 := by unfold goal; split <;> omega
    cases f with
    | ready c => exact ⟨2, by rw [polled, conn]; exact .write, g⟩
    | failed => exact absurd rfl hf
    | connecting a =>
      rcases hx with rfl | rfl | rfl | rfl | rfl
      · exact ⟨1, .ready hf, Nat.le_refl _⟩
      · exact ⟨2, by simp only [polled, conn]; exact .write, g⟩
      · exact ⟨1, .ready hf, Nat.le_refl _⟩
      · exact ⟨1, .ready hf, Nat.le_refl _⟩
      · exact ⟨1, .ready hf, Nat.le_refl _⟩
  | write =>
    rcases hx with rfl | rfl | rfl | rfl | rfl
    · exact ⟨2, .write, Nat.le_refl _⟩
    · exact ⟨2, .write, Nat.le_refl _⟩
    · exact ⟨3, .readHead, Nat.le_refl _⟩
    · exact ⟨2, .write, Nat.le_refl _⟩
    · exact ⟨2, .write, Nat.le_refl _⟩
  | readHead =>
    rcases hx with rfl | rfl | rfl | rfl | rfl
    · exact ⟨3, .readHead, Nat.le_refl _⟩
    · exact ⟨3, .readHead, Nat.le_refl _⟩
    · exact ⟨3, .readHead, Nat.le_refl _⟩
    · by_cases hm : p.method = .head
      · refine ⟨5, ?_, by simp [goal]⟩
        simp only [polled, callStep, hm, if_true, dec]
        have := Path.done (p := p) (v := v) (body := body) (r := r) (code := code) (hs := hs) (w := w)
          (b := b)
        rwa [if_pos hm] at this
      · refine ⟨4, ?_, Nat.le_refl _⟩
        simp only [polled, callStep, hm, if_false, settled]
        exact .readBody hm
    · exact ⟨3, .readHead, Nat.le_refl _⟩
  | readBody hm =>
    rcases hx with rfl | rfl | rfl | rfl | rfl
    · exact ⟨4, .readBody hm, Nat.le_refl _⟩
    · exact ⟨4, .readBody hm, Nat.le_refl _⟩
    · exact ⟨4, .readBody hm, Nat.le_refl _⟩
    · exact ⟨4, .readBody hm, Nat.le_refl _⟩
    · refine ⟨5, ?_, Nat.le_refl _⟩
      simp only [polled, callStep, dec]
      have := Path.done (p := p) (v := v) (body := body) (r := r) (code := code) (hs := hs) (w := w)
        (b := b)
      rwa [if_neg hm] at this
  | done => exact ⟨5, .done, by unfold goal; split <;> omega⟩

/-- Call `i` is on its way to success. -/
def OnPath (p : Proc) (v : Val) (body : Bytes) (r : Request) (code : Nat) (hs : List Header)
    (w : Val) (b : Bytes) (i n : Nat) (s : Sys) : Prop :=
  ∃ y m, s.calls[i]? = some y ∧ y.proc = p ∧ Path p v body r code hs w b m y.st ∧ n ≤ m

section
variable {p : Proc} {v : Val} {body : Bytes} {r : Request} {code : Nat} {hs : List Header}
  {w : Val} {b : Bytes} (hr : serRequest p.method p.entry v body = .ok r)
  (hw : deResponse p.resTy code hs = .ok w)
include hr hw

theorem onPath_poll {i n : Nat} {s : Sys} (h : OnPath p v body r code hs w b i n s) (x : IoResult)
    (hx : x = .notReady ∨ x = .connected ∨ x = .written ∨ x = .head code hs ∨ x = .body b) :
    OnPath p v body r code hs w b i (goal x n) (s.step (.poll i x)).2 := by
  obtain ⟨y, m, hy, rfl, hp, hn⟩ := h
  obtain ⟨k, h1, h2⟩ := path_poll hr hw hp x hx s.pool.isSome s.next
  refine ⟨{ y with st := polled s.pool.isSome s.next y.proc x y.st }, k, ?_, rfl, h1, ?_⟩
  · simp only [Sys.step]
    rw [poll_calls s i x y hy]
    exact set_get_self hy
  · refine Nat.le_trans ?_ h2
    by_cases e : n = m
    · rw [e]; exact Nat.le_refl _
    · have : goal x n ≤ n + 1 := by unfold goal; split <;> omega
      have := goal_mono x m
      omega

theorem onPath_step {i n : Nat} {s : Sys} (h : OnPath p v body r code hs w b i n s) (e : SysEvent)
    (he : (∀ r, e = .poll i r → r = .notReady) ∧ e ≠ .dropCall i) :
    OnPath p v body r code hs w b i n (s.step e).2 := by
  by_cases hp : ∃ x, e = .poll i x
  · obtain ⟨x, rfl⟩ := hp
    rw [he.1 x rfl]
    have := onPath_poll hr hw h .notReady (.inl rfl)
    exact this
  · obtain ⟨y, m, hy, rfl, hpa, hn⟩ := h
    obtain ⟨y', h1, h2, h3⟩ := step_changes s e i y hy
    have : y'.st = y.st := by
      generalize y.st = st at h3 hpa
      generalize y'.st = st' at h3
      cases h3 with
      | same => rfl
      | reply => cases hpa
      | poll => exact absurd ⟨_, rfl⟩ hp
      | dropped => exact absurd rfl he.2
      | late => rfl
    exact ⟨y', m, h1, h2, this ▸ hpa, hn⟩

theorem onPath_run {i n : Nat} {s : Sys} (h : OnPath p v body r code hs w b i n s)
    (evs : List SysEvent) (he : Undisturbed i evs) :
    OnPath p v body r code hs w b i n (Sys.run evs s).2 := by
  induction evs generalizing s with
  | nil => exact h
  | cons e es ih =>
    exact ih (onPath_step hr hw h e (he e (List.mem_cons_self ..)))
      fun x hx => he x (List.mem_cons_of_mem _ hx)

theorem onPath_run_poll {i n : Nat} {s : Sys} (h : OnPath p v body r code hs w b i n s)
    (evs : List SysEvent) (he : Undisturbed i evs) (x : IoResult)
    (hx : x = .notReady ∨ x = .connected ∨ x = .written ∨ x = .head code hs ∨ x = .body b)
    (evs' : List SysEvent) :
    (Sys.run (evs ++ .poll i x :: evs') s).2 =
        (Sys.run evs' ((Sys.run evs s).2.step (.poll i x)).2).2 ∧
      OnPath p v body r code hs w b i (goal x n) ((Sys.run evs s).2.step (.poll i x)).2 :=
  ⟨run_then .., onPath_poll hr hw (onPath_run hr hw h evs he) x hx⟩

end

omit [FloatText] in
theorem refusedTo_append (a : Addr) (l l' : List Effect) :
    refusedTo a (l ++ l') = refusedTo a l + refusedTo a l' := by
  simp [refusedTo]

omit [FloatText] in
theorem asked_append (evs evs' : List SysEvent) : asked (evs ++ evs') = asked evs ++ asked evs' :=
  List.filterMap_append

/-- Call `i` waits for its connection or is on its way. -/
def Begun (p : Proc) (v : Val) (body : Bytes) (r : Request) (code : Nat) (hs : List Header)
    (w : Val) (b : Bytes) (i : Nat) (s : Sys) : Prop :=
  (∃ y inner, s.calls[i]? = some y ∧ y.st = .waiting inner) ∨ OnPath p v body r code hs w b i 1 s

theorem begun_run {p : Proc} {v : Val} {body : Bytes} {r : Request} {code : Nat} {hs : List Header}
    {w : Val} {b : Bytes} (hr : serRequest p.method p.entry v body = .ok r)
    (hw : deResponse p.resTy code hs = .ok w) (size i : Nat) (a : Addr) (es evs : List SysEvent)
    (he : Undisturbed i es) (ha : (asked evs)[i]? = some (p, a, v, body))
    (h : Begun p v body r code hs w b i (Sys.run evs (.new size)).2)
    (hf : refusedTo a (Sys.run (evs ++ es) (.new size)).1 = 0)
    (hp : (Sys.run (evs ++ es) (.new size)).2.pool ≠ none) :
    Begun p v body r code hs w b i (Sys.run (evs ++ es) (.new size)).2 := by
  induction es generalizing evs with
  | nil => rwa [List.append_nil]
  | cons e es ih =>
    rw [List.append_cons] at hf hp ⊢
    have e1 : (Sys.run (evs ++ [e]) (.new size)).2 = ((Sys.run evs (.new size)).2.step e).2 :=
      run_then ..
    have ha' : (asked (evs ++ [e]))[i]? = some (p, a, v, body) := by
      rw [asked_append, List.getElem?_append_left (List.getElem?_eq_some_iff.1 ha).1]
      exact ha
    refine ih (evs ++ [e]) (fun x hx => he x (List.mem_cons_of_mem _ hx)) ha' ?_ hf hp
    obtain ⟨he1, he2⟩ := he e (List.mem_cons_self ..)
    rcases h with ⟨y, inner, hy, hst⟩ | h
    · have hf' : refusedTo a (Sys.run (evs ++ [e]) (.new size)).1 = 0 := by
        rw [sys_run_append, refusedTo_append] at hf
        omega
      have hp' : (Sys.run evs (.new size)).2.pool ≠ none := by
        intro h0
        rw [List.append_assoc, sys_run_append] at hp
        exact hp (C53_dropped_stays _ _ h0)
      by_cases hpoll : ∃ x, e = .poll i x
      · obtain ⟨x, rfl⟩ := hpoll
        left
        refine ⟨y, inner, ?_, hst⟩
        rw [e1]
        simp only [Sys.step]
        rw [poll_calls _ i x y hy]
        have : polled (Sys.run evs (.new size)).2.pool.isSome (Sys.run evs (.new size)).2.next y.proc x
            y.st = y.st := by
          rw [hst, polled, if_pos]
          cases h0 : (Sys.run evs (.new size)).2.pool with
          | none => exact absurd h0 hp'
          | some q => rfl
        rw [this]
        exact set_get_self hy
      · obtain ⟨y', h1, h2, h3⟩ := step_changes (Sys.run evs (.new size)).2 e i y hy
        rw [← e1] at h1
        rw [hst] at h3
        generalize hst' : y'.st = st' at h3
        cases h3 with
        | same => exact .inl ⟨y', inner, h1, hst'⟩
        | reply =>
          rename_i f
          right
          obtain ⟨v', b', hq, hin⟩ := (wire_reach size _).2.proc i y' h1
          rw [ha'] at hq
          cases hq
          have : inner = .new v body := hin inner (.inr ⟨f, hst'⟩)
          subst this
          refine ⟨y', 1, h1, rfl, ?_, Nat.le_refl _⟩
          rw [hst']
          refine .ready fun h0 => ?_
          subst h0
          have := C51_rejected size _ i y' _ h1 hst'
          omega
        | poll => exact absurd ⟨_, rfl⟩ hpoll
        | dropped => exact absurd rfl he2
        | late h0 => exact h0.elim
    · right
      rw [e1]
      exact onPath_step hr hw h e ⟨he1, he2⟩

/-- **C80.** A call succeeds if nothing stands in its way: it is made while the pool lives, for an
address to which no attempt to connect fails; the pool handles the commands in its queue; the network
connects it, takes its request and delivers head and body of a response; and request and response are
such that they can be serialized and deserialized.  Its result is that response (for `HEAD` without
body), whatever all other calls do in between, and it stays so. -/
theorem C80_succeeds (size : Nat) (evs e₀ e₁ e₂ e₃ e₄ : List SysEvent) (p : Proc) (a : Addr) (v : Val)
    (body : Bytes) (r : Request) (code : Nat) (hs : List Header) (b : Bytes) (w : Val)
    (hr : serRequest p.method p.entry v body = .ok r) (hw : deResponse p.resTy code hs = .ok w)
    (hn : (Sys.run (evs ++ [.call p a v body]) (.new size)).2.queue.length ≤ handles e₀)
    (hf : refusedTo a (Sys.run (evs ++ [.call p a v body] ++ e₀) (.new size)).1 = 0)
    (hp : (Sys.run (evs ++ [.call p a v body] ++ e₀) (.new size)).2.pool ≠ none)
    (i : Nat) (hi : i = (asked evs).length) (h₀ : Undisturbed i e₀) (h₁ : Undisturbed i e₁)
    (h₂ : Undisturbed i e₂) (h₃ : Undisturbed i e₃) :
    ∃ y, (Sys.run (evs ++ [.call p a v body] ++ e₀ ++ .poll i .connected :: (e₁ ++ .poll i .written ::
        (e₂ ++ .poll i (.head code hs) :: (e₃ ++ .poll i (.body b) :: e₄)))) (.new size)).2.calls[i]? =
          some y ∧ y.st = .done w (if p.method = .head then [] else b) := by
  have hlen : (Sys.run evs (.new size)).2.calls.length = i := by
    rw [hi]; exact (wire_reach size evs).2.len
  have e1 : (Sys.run (evs ++ [.call p a v body]) (.new size)).2 =
      ((Sys.run evs (.new size)).2.step (.call p a v body)).2 := run_then ..
  have hcalls : (Sys.run (evs ++ [.call p a v body]) (.new size)).2.calls =
      (Sys.run evs (.new size)).2.calls ++ [⟨p, a, .waiting (.new v body)⟩] := by
    rw [e1]; simp only [Sys.step, Sys.call, Sys.send_calls]
  have hy : (Sys.run (evs ++ [.call p a v body]) (.new size)).2.calls[i]? =
      some ⟨p, a, .waiting (.new v body)⟩ := by
    rw [hcalls, ← hlen]; simp
  have ha : (asked (evs ++ [.call p a v body]))[i]? = some (p, a, v, body) := by
    rw [asked_append, hi]; simp [asked]
  have hb := begun_run (b := b) hr hw size i a e₀ (evs ++ [.call p a v body]) h₀ ha
    (.inl ⟨_, _, hy, rfl⟩) hf hp
  have ho : OnPath p v body r code hs w b i 1
      (Sys.run (evs ++ [.call p a v body] ++ e₀) (.new size)).2 := by
    rcases hb with ⟨y, inner, h1, h2⟩ | h
    · refine absurd ?_ hp
      rw [sys_run_append] at h1 ⊢
      exact C53_answered size _ e₀ i y inner (by rw [hcalls]; simp [hlen]) hn h1 h2
    · exact h
  have h1 := onPath_poll hr hw ho .connected (.inr (.inl rfl))
  rw [run_then]
  obtain ⟨q1, h2⟩ := onPath_run_poll hr hw h1 e₁ h₁ .written (by simp)
    (e₂ ++ .poll i (.head code hs) :: (e₃ ++ .poll i (.body b) :: e₄))
  rw [q1]
  obtain ⟨q2, h3⟩ := onPath_run_poll hr hw h2 e₂ h₂ (.head code hs) (by simp)
    (e₃ ++ .poll i (.body b) :: e₄)
  rw [q2]
  obtain ⟨q3, h4⟩ := onPath_run_poll hr hw h3 e₃ h₃ (.body b) (by simp) e₄
  rw [q3]
  have last : ∀ (es : List SysEvent) (s : Sys), OnPath p v body r code hs w b i 5 s →
      OnPath p v body r code hs w b i 5 (Sys.run es s).2 := by
    intro es
    induction es with
    | nil => intro s h; exact h
    | cons e es ih =>
      intro s h
      refine ih _ ?_
      obtain ⟨y, m, hc, rfl, hpa, hm⟩ := h
      obtain ⟨y', g1, g2, g3⟩ := step_changes s e i y hc
      refine ⟨y', 5, g1, g2, ?_, Nat.le_refl _⟩
      generalize y.st = st at g3 hpa
      generalize y'.st = st' at g3
      cases hpa <;> first | omega | skip
      cases g3 with
      | same => exact .done
      | poll => exact .done
      | dropped h0 => exact absurd trivial h0
      | late => exact .done
  obtain ⟨y, m, hy, rfl, hpa, hm⟩ := last e₄ _ h4
  refine ⟨y, hy, ?_⟩
  generalize y.st = st at hpa
  cases hpa <;> first | rfl | (exact absurd hm (by decide))

end

/-! ### Examples -/

section Examples

/-- `C80_finishes`: a call to an address which cannot be reached has failed. -/
example : letI := toyFloat
    ∃ y, (Sys.run [.call exProc exA exCallArgs [1], .handle 0, .poll 0 .failed, .poll 0 .connected,
      .poll 0 .written, .poll 0 (.head 200 []), .poll 0 (.body [])] (.new 3)).2.calls[0]? = some y ∧
        Finished y.st := by
  let := toyFloat
  exact C80_finishes 3 [.call exProc exA exCallArgs [1]] [.handle 0, .poll 0 .failed] [] [] [] [] 0 200
    [] [] (by simp [Sys.run, Sys.step, Sys.call, Sys.send, Sys.new])
    (by simp [Sys.run, Sys.step, Sys.call, Sys.send, Sys.new, handles])

/-- `C80_succeeds`: another call is made and dropped meanwhile. -/
example : letI := toyFloat
    ∃ y, (Sys.run [.call exProc exA exCallArgs [1], .poll 0 .notReady, .handle 0, .poll 0 .connected,
      .call exProc exB exCallArgs [1], .poll 0 .written, .poll 0 (.head 404 []), .dropCall 1,
      .poll 0 (.body [7]), .dropPool] (.new 3)).2.calls[0]? = some y ∧
        y.st = .done (.unitVariant "NotFound".toList) [7] := by
  let := toyFloat
  obtain ⟨r, hr⟩ := exCall_sent [1]
  have hd : deResponse exProc.resTy 404 [] = .ok (.unitVariant "NotFound".toList) := rfl
  have hm : exProc.method ≠ .head := by decide
  have := C80_succeeds 3 [] [.poll 0 .notReady, .handle 0] [.call exProc exB exCallArgs [1]] []
    [.dropCall 1] [.dropPool] exProc exA exCallArgs [1] r 404 [] [7] _ hr hd
    (by simp [Sys.run, Sys.step, Sys.call, Sys.send, Sys.new, handles])
    (by simp [Sys.run, Sys.step, Sys.call, Sys.send, Sys.new, Sys.poll, Sys.handle, Cmd.event,
      Pool.step, Pool.handleAcquire, Pool.acquire, Pool.withSize, BTreeMap.firstFrom, Sys.reply,
      Sys.setCall, refusedTo])
    (by simp [Sys.run, Sys.step, Sys.call, Sys.send, Sys.new, Sys.poll, Sys.handle, Cmd.event,
      Pool.step, Pool.handleAcquire, Pool.acquire, Pool.withSize, BTreeMap.firstFrom, Sys.reply,
      Sys.setCall])
    0 rfl (by simp [Undisturbed]) (by simp [Undisturbed]) (by simp [Undisturbed])
    (by simp [Undisturbed])
  rw [if_neg hm] at this
  exact this

end Examples

end Htrpc
