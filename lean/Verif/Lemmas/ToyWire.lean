/-
An instance of the contract of the transport, so that statements which assume it are not vacuous.
-/
import Verif.Model.Server

namespace Htrpc.ToyWire

/-- A head: the method, the length of the target, the target, the length of the body. -/
def head : Bytes → Parsed ReqHead
  | m :: n :: r =>
    match r.drop n.toNat with
    | [] => .more
    | k :: rest =>
      .done ⟨if m = 0 then .head else .other m.toNat,
        (r.take n.toNat).map fun b => Char.ofNat b.toNat, [(contentLengthName, [k])]⟩ rest
  | _ => .more

/-- A body of the length given by the only header. -/
def body : List Header → Option (Bytes → Parsed Bytes)
  | [(_, [k])] => some fun bs =>
    if k.toNat ≤ bs.length then .done (bs.take k.toNat) (bs.drop k.toNat) else .more
  | _ => none

theorem head_append (bs : Bytes) (h : ReqHead) (rest more : Bytes) (hd : head bs = .done h rest) :
    head (bs ++ more) = .done h (rest ++ more) := by
  match bs, hd with
  | m :: n :: r, hd =>
    simp only [head] at hd
    cases hr : r.drop n.toNat with
    | nil => simp [hr] at hd
    | cons k rs =>
      have hlen : n.toNat < r.length := by
        have := congrArg List.length hr
        simp only [List.length_drop, List.length_cons] at this
        omega
      rw [hr] at hd
      simp only [List.cons_append, head]
      rw [List.drop_append_of_le_length (Nat.le_of_lt hlen), hr,
        List.take_append_of_le_length (Nat.le_of_lt hlen)]
      simp only [Parsed.done.injEq] at hd
      rw [hd.2]
      exact congrArg (Parsed.done · _) hd.1

/-- A lawful transport exists. -/
@[instance_reducible] def toyWire : Wire where
  head := head
  body := body
  head_nil := rfl
  head_append := head_append
  body_append := by
    intro hs f bs b rest more hf hb
    match hs, hf with
    | [(_, [k])], hf =>
      simp only [body, Option.some.injEq] at hf
      subst hf
      simp only at hb ⊢
      split at hb
      · rename_i hk
        simp only [Parsed.done.injEq] at hb
        rw [if_pos (by simp; omega), List.take_append_of_le_length hk,
          List.drop_append_of_le_length hk, hb.1, hb.2]
      · cases hb
  head_bad := by
    intro bs more hb
    match bs, hb with
    | m :: n :: r, hb =>
      simp only [head] at hb
      split at hb <;> cases hb
  body_bad := by
    intro hs f bs more hf hb
    match hs, hf with
    | [(_, [k])], hf =>
      simp only [body, Option.some.injEq] at hf
      subst hf
      simp only at hb
      split at hb <;> cases hb
  body_rest := by
    intro hs f bs b rest hf hb
    match hs, hf with
    | [(_, [k])], hf =>
      simp only [body, Option.some.injEq] at hf
      subst hf
      simp only at hb
      split at hb
      · simp only [Parsed.done.injEq] at hb
        rw [← hb.2]
        exact List.drop_suffix _ _
      · cases hb

end Htrpc.ToyWire
