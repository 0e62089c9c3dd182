/-
Cases that meet the hypotheses of the theorems in Verif/Props/Timing.lean.
-/
import Verif.Props.Timing
import Verif.Props.LiveExamples

namespace Htrpc
open Spec

namespace ServerExamples
open ToyJson ToyWire

attribute [local instance] toyFloat toyUrl toyJson toyWire

theorem readsWhole_weaken {cfg : ServerCfg} {g g' : ReadBody} (hg : ∀ s v b w, g s v b w → g' s v b w)
    {c : ConnState} {es : List ConnEvent} (h : ReadsWhole cfg g c es) : ReadsWhole cfg g' c es := by
  induction es generalizing c with
  | nil => trivial
  | cons e es ih =>
    refine ⟨fun w rest he hd s v hp f hf => ?_, ih h.2⟩
    obtain ⟨b, hb, hw⟩ := h.1 w rest he hd s v hp f hf
    exact ⟨b, hb, hg _ _ _ _ hw⟩

/-- The bytes of both requests. -/
def exAll : Bytes := exBytes 1 "/users/7".toList [9] ++ exBytes 0 "/nope".toList []

/-- `read_body` keeps the request, and every request is answered with the same response. -/
abbrev ExGiven (fin : Option Closed) : List ConnEvent → Prop :=
  Given exCfg (fun _ v _ => v) (fun _ => (.unitVariant "Ok".toList, [4, 5])) exAll fin

/-- The end comes after all bytes. -/
theorem ends_of {es es' : List ConnEvent} {k : Closed} (hn : ∀ k, .close k ∉ es)
    (ha : arriving es = exAll) (a : List ConnEvent) (k' : Closed) (z : List ConnEvent)
    (h : es ++ .close k :: es' = a ++ .close k' :: z) (hna : ∀ k, .close k ∉ a) :
    some k = some k' ∧ arriving a = exAll := by
  rcases List.append_eq_append_iff.1 h with ⟨d, rfl, hd⟩ | ⟨d, rfl, hd⟩
  · cases d with
    | nil =>
      simp only [List.nil_append, List.cons.injEq, ConnEvent.close.injEq] at hd
      simp [hd.1, ha]
    | cons x d =>
      simp only [List.cons_append, List.cons.injEq] at hd
      exact absurd (by simp [← hd.1]) (hna k)
  · cases d with
    | nil =>
      simp only [List.nil_append, List.cons.injEq, ConnEvent.close.injEq] at hd
      refine ⟨by rw [hd.1], by simpa using ha⟩
    | cons x d =>
      simp only [List.cons_append, List.cons.injEq] at hd
      exact absurd (by simp [← hd.1]) (hn k')

/-- The history of the example, with time passing after it. -/
theorem ex_given (n : Nat) : ExGiven (some .eof) (exEvents ++ List.replicate n .notReady) where
  arrives := by
    have : arriving (exEvents ++ List.replicate n .notReady) = arriving exEvents := by
      simp only [exEvents, List.cons_append, List.nil_append, arriving]
    rw [this, ex_whole.1]
    exact List.prefix_refl _
  ends a k z h hna := by
    refine ends_of (es := exEvents.take 11) (es' := .input :: List.replicate n .notReady) ?_ (by
      simp only [exEvents, List.take_succ_cons, List.take_zero, arriving, List.append_nil, exAll]) a k z h hna
    intro k hk
    simp [exEvents] at hk
  smooth a e z hz hb := by
    have he : e ∈ exEvents ++ List.replicate n .notReady := by rw [hz]; simp
    have hb : e = .connected false ∨ e = .bodyFailed ∨ e = .written false := by
      cases hb <;> simp
    rw [List.mem_append] at he
    rcases he with he | he
    · rw [exEvents] at he
      simp only [List.mem_cons, List.not_mem_nil, or_false] at he
      rcases he with h | h | h | h | h | h | h | h | h | h | h | h | h <;> subst h <;> simp at hb
    · rw [List.eq_of_mem_replicate he] at hb
      simp at hb
  reads := by
    refine readsWhole_append (readsWhole_weaken (fun s v b w hw => hw.1.symm) ex_whole.2)
      (readsWhole_other fun e he w rest h => ?_)
    rw [List.eq_of_mem_replicate he] at h
    cases h
  responds a v b z h _ := by
    have hm : ConnEvent.handled v b ∈ exEvents ++ List.replicate n .notReady := by rw [h]; simp
    rw [List.mem_append] at hm
    rcases hm with hm | hm
    · simp only [exEvents, List.mem_cons, reduceCtorEq, false_or, or_false, List.not_mem_nil,
        ConnEvent.handled.injEq] at hm
      rw [hm.1, hm.2]
    · cases List.eq_of_mem_replicate hm

theorem ex_given_end : ExGiven (some .eof) exEvents := by
  have := ex_given 0
  rwa [List.replicate_zero, List.append_nil] at this

/-- The same bytes arrive one by one, before the connection is established; nothing else has happened
yet but that the first head is read. -/
def slowEvents : List ConnEvent := exAll.map (fun b => .recv [b]) ++ [.connected true, .notReady, .input]

theorem slow_given : ExGiven (some .eof) slowEvents where
  arrives := by
    have : arriving slowEvents = exAll := rfl
    rw [this]
    exact List.prefix_refl _
  ends a k z h hna := by
    have hm : ConnEvent.close k ∈ slowEvents := by rw [h]; simp
    simp [slowEvents] at hm
  smooth a e z hz hb := by
    have he : e ∈ slowEvents := by rw [hz]; simp
    have hb : e = .connected false ∨ e = .bodyFailed ∨ e = .written false := by
      cases hb <;> simp
    simp only [slowEvents, List.mem_append, List.mem_map, List.mem_cons, List.not_mem_nil, or_false] at he
    rcases he with ⟨b, -, rfl⟩ | rfl | rfl | rfl <;> simp at hb
  reads := readsWhole_other (by
    intro e he w rest h
    subst h
    simp [slowEvents] at he)
  responds a v b z h _ := by
    have hm : ConnEvent.handled v b ∈ slowEvents := by rw [h]; simp
    simp [slowEvents] at hm

/-- `C127_same`: bytes that arrive together, and bytes that arrive one by one. -/
example : connLog exCfg slowEvents <+: connLog exCfg exEvents ∨
    connLog exCfg exEvents <+: connLog exCfg slowEvents :=
  C127_same _ _ slow_given ex_given_end

theorem run_bytes (c : ConnState) (hc : c.closed = none) (bs : Bytes) :
    ConnState.run exCfg c (bs.map fun b => .recv [b]) = ({ c with input := c.input ++ bs }, []) := by
  induction bs generalizing c with
  | nil => simp [ConnState.run]
  | cons b bs ih =>
    have e : c.step exCfg (.recv [b]) = ({ c with input := c.input ++ [b] }, []) := by
      simp only [ConnState.step, hc]
    rw [List.map_cons, ConnState.run, e]
    simp only [ih { c with input := c.input ++ [b] } hc]
    simp

/-- And what happens in the slow one is something. -/
example : connLog exCfg slowEvents = [.read (exHead (.other 1) "/users/7".toList 1)] := by
  rw [connLog, slowEvents, conn_run_append, run_bytes _ rfl]
  have hh : Wire.head exAll =
      .done (exHead (.other 1) "/users/7".toList 1) (9 :: exBytes 0 "/nope".toList []) := rfl
  have h1 := accept_call (cfg := exCfg) ex_call rfl
    ⟨.readHead, .other 0, 9 :: exBytes 0 "/nope".toList [], none⟩
  simp only [ConnState.new, ConnState.run, ConnState.step, ConnState.pollHead, List.nil_append, hh, if_true]
  rw [h1]
  rfl

/-- `C127_over`: time that passes at the end. -/
example (n : Nat) : connLog exCfg exEvents = connLog exCfg (exEvents ++ List.replicate n .notReady) := by
  have h : .finished ∈ connLog exCfg exEvents := by
    rw [ex_log]
    simp
  have h' : .finished ∈ connLog exCfg (exEvents ++ List.replicate n .notReady) := by
    rw [connLog, conn_run_append]
    exact List.mem_append_left _ h
  exact C127_over _ _ ex_given_end (ex_given n) ⟨_, h, rfl⟩ ⟨_, h', rfl⟩

/-- `C127_cut_off`: the connection cannot be established. -/
example : ∃ l, (connLog exCfg [.connected false] = l ∨ connLog exCfg [.connected false] = l ++ [.warned]) ∧
    (l <+: connLog exCfg exEvents ∨ connLog exCfg exEvents <+: l) := by
  refine C127_cut_off _ _ ⟨List.nil_prefix, fun a k z h _ => ?_, readsWhole_other (by simp), fun a v b z h _ => ?_⟩
    ex_given_end
  · have : ConnEvent.close k ∈ [ConnEvent.connected false] := by rw [h]; simp
    simp at this
  · have : ConnEvent.handled v b ∈ [ConnEvent.connected false] := by rw [h]; simp
    simp at this

/-- Here something is cut off. -/
example : connLog exCfg [.connected false] = [.warned] := rfl

theorem ex_fair : Fair exCfg exSchedule := by
  intro n ⟨e, he⟩
  rcases ex_upTo n with ⟨b, hb, hn⟩ | ⟨k, hk⟩
  · refine ⟨12, by omega, ?_⟩
    exact .inl (.head (by rw [ex_run.1]))
  · exfalso
    rw [hk, conn_run_append] at he
    have hf : ∀ k, (ConnState.run exCfg (ConnState.run exCfg .new exEvents).1
        (List.replicate k .notReady)).1.phase = .finished := by
      intro k
      rw [ex_run.2]
      induction k with
      | zero => rfl
      | succ k ih => exact ih
    have := hf k
    cases he with
    | connected h => rw [this] at h; cases h
    | head h => rw [this] at h; cases h
    | drain h => rw [this] at h; cases h
    | body h => rw [this] at h; cases h
    | handled h => rw [this] at h; cases h
    | written h => rw [this] at h; cases h

/-- `C127_fair`: what happens in the slow history happens in the other one. -/
example : ∃ m, connLog exCfg slowEvents <+: connLog exCfg (upTo exSchedule m) := by
  refine C127_fair (fin := some .eof) slowEvents exSchedule slow_given (fun n => ?_) ex_fair ⟨13, ex_whole.1, ?_⟩
  · rcases ex_upTo n with ⟨b, hb, -⟩ | ⟨k, hk⟩
    · have := ex_given_end
      rw [hb] at this
      exact given_left this
    · rw [hk]
      exact ex_given k
  · intro k hk
    cases hk
    have : upTo exSchedule 13 = exEvents := rfl
    rw [this, exEvents]
    simp

end ServerExamples

end Htrpc
