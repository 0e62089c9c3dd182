/-
How many connections to an address there are when all commands have been handled.
-/
import Verif.Spec.Peak
import Verif.Props.OpenConns
import Verif.Lemmas.Backoff
import Mathlib.Data.List.Induction

namespace Htrpc
open Spec

/-- The call is to `a` and has a connection, or makes one. -/
def keeps (a : Addr) (y : PCall) : Bool :=
  decide (y.addr = a) &&
    match y.st with
    | .replied _ (.ready _) | .replied _ (.connecting _) | .active _ _ => true
    | _ => false

/-- The call is to `a` and waits for the answer of the pool. -/
def waitsFor (a : Addr) (y : PCall) : Bool :=
  decide (y.addr = a) &&
    match y.st with
    | .waiting _ => true
    | _ => false

/-- The call `i` waits. -/
def aliveAt (a : Addr) (l : List PCall) (i : Nat) : Bool := (l[i]?.map (waitsFor a)).getD false

/-- Idle connections to `a` at the end, and calls that got one or make one, if all commands are handled with `n`
idle connections at first, and no call is rejected. -/
def demand (a : Addr) (l : List PCall) : List Cmd → Nat → Nat
  | [], n => n
  | .acquire _ i :: q, n => if aliveAt a l i = true then 1 + demand a l q (n - 1) else demand a l q n
  | .release b _ :: q, n => if b = a then demand a l q (n + 1) else demand a l q n
  | .blacklist _ :: q, n => demand a l q n

/-- The idle connections at the end. -/
def leftover (a : Addr) (l : List PCall) : List Cmd → Nat → Nat
  | [], n => n
  | .acquire _ i :: q, n => if aliveAt a l i = true then leftover a l q (n - 1) else leftover a l q n
  | .release b _ :: q, n => if b = a then leftover a l q (n + 1) else leftover a l q n
  | .blacklist _ :: q, n => leftover a l q n

/-- The acquisitions of calls that wait. -/
def asking (a : Addr) (l : List PCall) (q : List Cmd) : List Nat :=
  q.filterMap fun
    | .acquire _ i => if aliveAt a l i = true then some i else none
    | _ => none

theorem asking_pos {a : Addr} {l : List PCall} {i : Nat} (h : aliveAt a l i = true) (b : Addr) (q : List Cmd) :
    asking a l (.acquire b i :: q) = i :: asking a l q := by
  simp [asking, h]

theorem asking_neg {a : Addr} {l : List PCall} {i : Nat} (h : ¬ aliveAt a l i = true) (b : Addr) (q : List Cmd) :
    asking a l (.acquire b i :: q) = asking a l q := by
  simp [asking, h]

theorem demand_eq (a : Addr) (l : List PCall) (q : List Cmd) (n : Nat) :
    demand a l q n = (asking a l q).length + leftover a l q n := by
  induction q generalizing n with
  | nil => simp [demand, asking, leftover]
  | cons cmd q ih =>
    cases cmd with
    | acquire b i =>
      rw [demand, leftover]
      by_cases h : aliveAt a l i = true
      · rw [if_pos h, if_pos h, ih, asking_pos h, List.length_cons]
        omega
      · rw [if_neg h, if_neg h, ih, asking_neg h]
    | release b c =>
      rw [demand, leftover, asking, List.filterMap_cons_none rfl]
      split <;> exact ih _
    | blacklist b => exact ih _

theorem demand_mono (a : Addr) (l : List PCall) (q : List Cmd) (n : Nat) :
    demand a l q n ≤ demand a l q (n + 1) ∧ demand a l q (n + 1) ≤ demand a l q n + 1 := by
  induction q generalizing n with
  | nil => simp [demand]
  | cons cmd q ih =>
    cases cmd with
    | acquire b i =>
      rw [demand, demand]
      split
      · cases n with
        | zero => simp
        | succ n =>
          have := ih n
          simp only [Nat.add_sub_cancel]
          omega
      · exact ih n
    | release b c =>
      rw [demand, demand]
      split
      · exact ih _
      · exact ih _
    | blacklist b => exact ih n

theorem demand_le (a : Addr) (l : List PCall) (q : List Cmd) {m n : Nat} (h : m ≤ n) :
    demand a l q m ≤ demand a l q n := by
  induction h with
  | refl => exact Nat.le_refl _
  | step h ih => exact Nat.le_trans ih (demand_mono a l q _).1

/-- A call that gives up needs nothing. -/
theorem demand_give_up (a : Addr) (l : List PCall) (q : List Cmd) (n : Nat) :
    demand a l q n ≤ 1 + demand a l q (n - 1) := by
  cases n with
  | zero => simp
  | succ n =>
    have := (demand_mono a l q n).2
    simp only [Nat.add_sub_cancel]
    omega

/-- If fewer calls wait, not more is needed. -/
theorem demand_calls {a : Addr} {l l' : List PCall} {q : List Cmd}
    (h : ∀ i b, .acquire b i ∈ q → aliveAt a l' i = true → aliveAt a l i = true) (n : Nat) :
    demand a l' q n ≤ demand a l q n := by
  induction q generalizing n with
  | nil => exact Nat.le_refl _
  | cons cmd q ih =>
    have ih := ih fun i b hm => h i b (List.mem_cons_of_mem _ hm)
    cases cmd with
    | acquire b i =>
      rw [demand, demand]
      by_cases h1 : aliveAt a l' i = true
      · rw [if_pos h1, if_pos (h i b List.mem_cons_self h1)]
        exact Nat.add_le_add_left (ih _) 1
      · rw [if_neg h1]
        split
        · exact Nat.le_trans (ih n) (demand_give_up a l q n)
        · exact ih n
    | release b c =>
      rw [demand, demand]
      split <;> exact ih _
    | blacklist b => exact ih n

/-- What is needed is at least what is there. -/
theorem demand_there (a : Addr) (l : List PCall) (q : List Cmd) (n : Nat) :
    n + (queued q).countP (fun e => decide (e.1 = a)) ≤ demand a l q n := by
  induction q generalizing n with
  | nil => simp [demand, queued]
  | cons cmd q ih =>
    cases cmd with
    | acquire b i =>
      rw [demand, queued]
      split
      · have := ih (n - 1)
        omega
      · exact ih n
      · intro _ _ h; cases h
    | release b c =>
      rw [demand, queued, List.countP_cons]
      by_cases hb : b = a
      · have := ih (n + 1)
        simp only [hb, decide_true, if_true]
        omega
      · simpa [hb] using ih n
    | blacklist b =>
      rw [demand, queued]
      · exact ih n
      · intro _ _ h; cases h

theorem demand_snoc (a : Addr) (l : List PCall) (q : List Cmd) (cmd : Cmd) (n : Nat) :
    demand a l (q ++ [cmd]) n = (asking a l q).length + demand a l [cmd] (leftover a l q n) := by
  induction q generalizing n with
  | nil => simp [asking, leftover]
  | cons c q ih =>
    rw [List.cons_append]
    cases c with
    | acquire b i =>
      rw [demand, leftover]
      by_cases h : aliveAt a l i = true
      · rw [if_pos h, if_pos h, ih, asking_pos h, List.length_cons]
        omega
      · rw [if_neg h, if_neg h, ih, asking_neg h]
    | release b c =>
      rw [demand, leftover, asking, List.filterMap_cons_none rfl]
      split <;> exact ih _
    | blacklist b => exact ih _

/-- Different calls. -/
theorem alive_count (a : Addr) (l : List PCall) (is : List Nat) (hn : is.Nodup) (h : ∀ i ∈ is, aliveAt a l i = true) :
    is.length ≤ l.countP (waitsFor a) := by
  have hsub : is.length ≤ ((List.range l.length).filter (aliveAt a l)).length := by
    refine (hn.subperm fun i hi => ?_).length_le
    have hi' := h i hi
    refine List.mem_filter.2 ⟨List.mem_range.2 ?_, hi'⟩
    rcases Nat.lt_or_ge i l.length with h1 | h1
    · exact h1
    · rw [aliveAt, List.getElem?_eq_none h1] at hi'; cases hi'
  refine Nat.le_trans hsub (Nat.le_of_eq ?_)
  clear hsub h hn
  induction l using List.reverseRecOn with
  | nil => rfl
  | append_singleton l y ih =>
    rw [List.length_append, List.length_singleton, List.range_succ, List.filter_append, List.length_append,
      List.countP_append, ← ih]
    congr 1
    · refine congrArg List.length (List.filter_congr fun i hi => ?_)
      rw [aliveAt, aliveAt, List.getElem?_append_left (List.mem_range.1 hi)]
    · rw [List.filter_singleton, aliveAt, List.getElem?_append_right (Nat.le_refl _), Nat.sub_self]
      simp only [List.getElem?_cons_zero, Option.map_some, Option.getD_some]
      cases h : waitsFor a y <;> simp [h]

/-- The idle connections of a pool to an address. -/
def idleTo (a : Addr) (p : Pool) : Nat := p.connections.countP fun e => decide (e.1.addr = a)

theorem idleTo_like {a : Addr} {p : Pool} {size : Nat} {ip : IdlePool} (h : p.Like size ip) :
    idleTo a p = ip.idle.countP fun e => decide (e.1 = a) := by
  obtain ⟨es, hes, hid⟩ := h.holds
  rw [← hid, idleTo, hes.perm.countP_eq, Pool.idleOf, List.countP_map, List.countP_map]
  rfl

end Htrpc
