/-
Pooled clients and servers together: which response a call reads.
-/
import Verif.Spec.System
import Verif.Lemmas.Turns
import Verif.Props.IntegrityHttp

namespace Htrpc
open Spec Http

/-! ### Turns -/

theorem requestsOn_append (l l' : List WireStep) :
    requestsOn (l ++ l') = requestsOn l ++ requestsOn l' := List.filterMap_append

theorem Spec.InTurn.exchanges {l : List WireStep} (h : InTurn l) :
    ∃ xs : List (List WireStep), l = xs.flatten ∧ ∀ x ∈ xs, ∃ i, Exchanged i x := by
  induction h with
  | nil => exact ⟨[], rfl, by simp⟩
  | @snoc l i x _ hx ih =>
    obtain ⟨xs, rfl, hxs⟩ := ih
    refine ⟨xs ++ [x], by simp, ?_⟩
    intro y hy
    rcases List.mem_append.1 hy with hy | hy
    · exact hxs y hy
    · rw [List.mem_singleton.1 hy]; exact ⟨i, hx⟩

theorem Spec.Exchanged.request {i : Nat} {x : List WireStep} (h : Exchanged i x) :
    ∃ r, requestsOn x = [(i, r)] := by
  cases h with
  | head => exact ⟨_, rfl⟩
  | full => exact ⟨_, rfl⟩

/-! ### Reading -/

theorem readResponseHead_append (bs : Bytes) (h : Nat × List Header) (rest more : Bytes)
    (hd : readResponseHead bs = .done h rest) :
    readResponseHead (bs ++ more) = .done h (rest ++ more) := by
  unfold readResponseHead at hd
  split at hd
  · cases hd
  · cases hd
  · rename_i l ls r hr
    rw [readResponseHead, readLines_append more hr]
    split at hd
    · rename_i c hs h1 h2
      cases hd
      simp only [h1, h2]
    · cases hd

theorem Spec.ReadsOff.append [MethodNames] {hs : List Header} {d : Bytes} {l : List WireStep}
    {rest : Bytes} (h : ReadsOff hs d l rest) (more : Bytes) :
    ReadsOff hs (d ++ more) l (rest ++ more) := by
  induction h with
  | nil => exact .nil
  | sends _ ih => exact .sends ih
  | sent _ ih => exact .sent ih
  | head h1 _ ih => exact .head (readResponseHead_append _ _ _ more h1) ih
  | body h1 h2 _ ih => exact .body h1 (httpWire.body_append _ _ _ _ _ more h1 h2) ih

/-- A response that was written in full for a request with this method. -/
def Good (m : Method) (a : Response) : Prop :=
  SafeHeaders a.headers ∧ ∃ body, Framed a.headers body ∧ a.body = if m = .head then [] else body

theorem readBody_good {m : Method} {a : Response} (h : Good m a) (hm : m ≠ .head) :
    ∃ f, readBody a.headers = some f ∧ ∀ more, f (a.body ++ more) = .done a.body more := by
  obtain ⟨h1, body, h2, h3⟩ := h
  rw [if_neg hm] at h3
  rw [h3]
  refine readBody_framed h2 fun x hx b hb => ?_
  have := isToken_facts ((h1 x hx).1.2 b hb)
  omega

/-- There is nothing to read without bytes. -/
theorem readResponseHead_nil : readResponseHead [] = .more := rfl

/-- The response of an exchange is the first one. -/
theorem reads_exchange {phrase : Status → Bytes} (hp : ∀ s, ∀ b ∈ phrase s, ValueByte b) {as : List Response}
    {hs : List Header} {i : Nat} {x l : List WireStep} {rest : Bytes} (hx : Exchanged i x)
    (hgood : ∀ a i r, as[0]? = some a → (requestsOn x)[0]? = some (i, r) → Good r.method a)
    (h : ReadsOff hs (written phrase as) (x ++ l) rest) :
    ∃ a as', as = a :: as' ∧ .head i a.status.code a.headers ∈ x ∧
      (∀ b, .body i b ∈ x → b = a.body) ∧
      ReadsOff a.headers (written phrase as') l rest := by
  cases as with
  | nil =>
    exfalso
    cases hx with
    | head hm => 
      cases h with | sends h => cases h with | sent h => cases h with | head h1 h => cases h1
    | full hm =>
      cases h with | sends h => cases h with | sent h => cases h with | head h1 h => cases h1
  | cons a as =>
    have hw : written phrase (a :: as) = writeResponse (phrase a.status) a ++ written phrase as := by
      simp [written]
    rw [hw] at h
    cases hx with
    | head hm =>
      cases h with | sends h => cases h with | sent h => cases h with | head h1 h =>
      have hg := hgood a _ _ rfl rfl
      rw [readResponseHead_write (hp _) hg.1] at h1
      cases h1
      have hb : a.body = [] := by
        obtain ⟨-, body, -, hb⟩ := hg
        rw [hb, if_pos hm]
      rw [hb] at h
      exact ⟨a, as, rfl, by simp, by simp, h⟩
    | full hm =>
      cases h with | sends h => cases h with | sent h => cases h with | head h1 h =>
      have hg := hgood a _ _ rfl rfl
      rw [readResponseHead_write (hp _) hg.1] at h1
      cases h1
      cases h with | body h2 h3 h =>
      obtain ⟨f, h4, h5⟩ := readBody_good hg hm
      rw [h4] at h2
      cases h2
      rw [h5] at h3
      cases h3
      exact ⟨a, as, rfl, by simp, by simp, h⟩

theorem reads_turns {phrase : Status → Bytes} (hp : ∀ s, ∀ b ∈ phrase s, ValueByte b)
    {xs : List (List WireStep)} (hxs : ∀ x ∈ xs, ∃ i, Exchanged i x) {as : List Response}
    {hs : List Header} {l : List WireStep} {rest : Bytes}
    (hgood : ∀ (n : Nat) a i r, as[n]? = some a → (requestsOn (xs.flatten ++ l))[n]? = some (i, r) →
      Good r.method a)
    (h : ReadsOff hs (written phrase as) (xs.flatten ++ l) rest) :
    ∃ as' hs', as.drop (requestsOn xs.flatten).length = as' ∧
      (requestsOn xs.flatten).length ≤ as.length ∧ ReadsOff hs' (written phrase as') l rest := by
  induction xs generalizing as hs with
  | nil => exact ⟨as, hs, rfl, Nat.zero_le _, h⟩
  | cons x xs ih =>
    obtain ⟨i, hx⟩ := hxs x (List.mem_cons_self ..)
    obtain ⟨r, hr⟩ := hx.request
    rw [List.flatten_cons, List.append_assoc] at h
    obtain ⟨a, as', rfl, -, -, h'⟩ := reads_exchange hp hx (fun a j r' h0 h1 =>
      hgood 0 a j r' h0 (by
        rw [List.flatten_cons, List.append_assoc, requestsOn_append, hr]
        rw [hr] at h1
        exact h1)) h
    obtain ⟨as'', hs', h1, h2, h3⟩ := ih (fun y hy => hxs y (List.mem_cons_of_mem _ hy)) (fun n a' j r' h0 h1 =>
      hgood (n + 1) a' j r' (by simpa using h0) (by
        rw [List.flatten_cons, List.append_assoc, requestsOn_append, hr]
        simpa using h1)) h'
    have hlen : (requestsOn (x :: xs).flatten).length = (requestsOn xs.flatten).length + 1 := by
      rw [List.flatten_cons, requestsOn_append, hr]
      simp
    refine ⟨as'', hs', ?_, by rw [hlen]; simp; exact h2, h3⟩
    rw [hlen]
    exact h1

/-- The response which a call reads is the one at the place of its request. -/
theorem reads_own [MethodNames] {phrase : Status → Bytes} (hp : ∀ s, ∀ b ∈ phrase s, ValueByte b)
    {as : List Response} {E x l : List WireStep} {i : Nat} (hE : InTurn E) (hx : Exchanged i x)
    (hgood : ∀ (n : Nat) a i r, as[n]? = some a → (requestsOn (E ++ x ++ l))[n]? = some (i, r) →
      Good r.method a)
    {d rest : Bytes} (hd : d <+: written phrase as) (h : ReadsOff [] d (E ++ x ++ l) rest) :
    ∃ a r, as[(requestsOn E).length]? = some a ∧
      (requestsOn (E ++ x ++ l))[(requestsOn E).length]? = some (i, r) ∧
      .head i a.status.code a.headers ∈ x ∧ ∀ b, .body i b ∈ x → b = a.body := by
  obtain ⟨more, hmore⟩ := hd
  have h := h.append more
  rw [hmore, List.append_assoc] at h
  obtain ⟨xs, rfl, hxs⟩ := hE.exchanges
  rw [List.append_assoc] at hgood ⊢
  obtain ⟨as', hs', rfl, hle, h1⟩ := reads_turns hp hxs hgood h
  obtain ⟨r, hr⟩ := hx.request
  have hat : (requestsOn (xs.flatten ++ (x ++ l)))[(requestsOn xs.flatten).length]? = some (i, r) := by
    rw [requestsOn_append, List.getElem?_append_right (Nat.le_refl _), Nat.sub_self, requestsOn_append, hr]
    rfl
  obtain ⟨a, as', ha, h2, h3, -⟩ := reads_exchange hp hx (fun a j r' h0 h1 => by
    rw [hr] at h1
    cases h1
    refine hgood (requestsOn xs.flatten).length a i r ?_ hat
    rw [List.getElem?_drop] at h0
    simpa using h0) h1
  refine ⟨a, r, ?_, hat, h2, h3⟩
  have : (as.drop (requestsOn xs.flatten).length)[0]? = some a := by rw [ha]; rfl
  rw [List.getElem?_drop] at this
  simpa using this

end Htrpc
