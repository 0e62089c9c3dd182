/-
A transport with limits is a transport.
-/
import Verif.Model.Limits
import Verif.Props.Interop

namespace Htrpc
open Spec Http

section
variable [MethodNames]

theorem limitHead_done {size count : Nat} {bs : Bytes} {h : ReqHead} {rest : Bytes} :
    limitHead size count bs (readHead bs) = .done h rest ↔
      readHead bs = .done h rest ∧ bs.length - rest.length ≤ size ∧ h.headers.length ≤ count := by
  constructor
  · intro hd
    cases hr : readHead bs with
    | done h' rest' =>
      rw [hr, limitHead] at hd
      split at hd
      · cases hd; exact ⟨rfl, by assumption⟩
      · cases hd
    | more => rw [hr, limitHead] at hd; split at hd <;> cases hd
    | bad => rw [hr] at hd; cases hd
  · rintro ⟨h1, h2⟩
    rw [h1, limitHead, if_pos h2]

theorem limitHead_bad {size count : Nat} {bs : Bytes} :
    limitHead size count bs (readHead bs) = .bad ↔ readHead bs = .bad ∨
      (readHead bs = .more ∧ size ≤ bs.length) ∨
      ∃ h rest, readHead bs = .done h rest ∧
        ¬ (bs.length - rest.length ≤ size ∧ h.headers.length ≤ count) := by
  cases hr : readHead bs with
  | done h rest =>
    rw [limitHead]
    split
    · rename_i hc
      simp only [reduceCtorEq, false_and, false_or, false_iff]
      rintro ⟨h', r', e, hn⟩
      cases e
      exact hn hc
    · rename_i hc
      simp only [true_iff]
      exact .inr (.inr ⟨_, _, rfl, hc⟩)
  | more =>
    rw [limitHead]
    split <;> simp_all
  | bad => simp [limitHead]

theorem limit_append {size count : Nat} {bs : Bytes} {h : ReqHead} {rest : Bytes} (more : Bytes)
    (hd : limitHead size count bs (readHead bs) = .done h rest) :
    limitHead size count (bs ++ more) (readHead (bs ++ more)) = .done h (rest ++ more) := by
  rw [limitHead_done] at hd ⊢
  obtain ⟨h1, h2, h3⟩ := hd
  refine ⟨readHead_append _ _ _ _ h1, ?_, h3⟩
  rw [List.length_append, List.length_append]
  omega

theorem limit_bad {size count : Nat} {bs : Bytes} (more : Bytes)
    (hd : limitHead size count bs (readHead bs) = .bad) :
    limitHead size count (bs ++ more) (readHead (bs ++ more)) = .bad := by
  rw [limitHead_bad] at hd ⊢
  rcases hd with h1 | ⟨h1, h2⟩ | ⟨h, rest, h1, h2⟩
  · exact .inl (readHead_bad _ _ h1)
  · cases hr : readHead (bs ++ more) with
    | bad => exact .inl rfl
    | more => exact .inr (.inl ⟨rfl, by rw [List.length_append]; omega⟩)
    | done h rest =>
      refine .inr (.inr ⟨h, rest, rfl, fun hc => ?_⟩)
      obtain ⟨text, e, ht⟩ := headText_only hr
      have hlen := congrArg List.length e
      rw [List.length_append, List.length_append] at hlen
      rw [List.length_append] at hc
      have hp : text <+: bs := List.prefix_of_prefix_length_le ⟨rest, e.symm⟩ ⟨more, rfl⟩ (by omega)
      obtain ⟨x, rfl⟩ := hp
      rw [headText_read ht x] at h1
      cases h1
  · refine .inr (.inr ⟨h, rest ++ more, readHead_append _ _ _ _ h1, ?_⟩)
    rw [List.length_append, List.length_append]
    omega

/-- HTTP with limits is a lawful transport. -/
@[instance_reducible] def limitedWire (size count : Nat) (hs : 0 < size) : Wire where
  head bs := limitHead size count bs (readHead bs)
  body := readBody
  head_nil := by
    show limitHead size count [] (.more) = .more
    rw [limitHead, if_neg (by simp; omega)]
  head_append bs h rest more hd := limit_append more hd
  body_append := httpWire.body_append
  head_bad bs more hd := limit_bad more hd
  body_bad := httpWire.body_bad
  body_rest := httpWire.body_rest

/-- The transport of the server. -/
@[instance_reducible] def serverWire : Wire := limitedWire maxHeadSize maxHeaders (by decide)

end

end Htrpc
