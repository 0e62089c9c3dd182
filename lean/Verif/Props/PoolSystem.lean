/-
Properties of calls through a pool (C46, C47, C51 to C53).
-/
import Verif.Lemmas.PoolHist
import Verif.Props.Client

namespace Htrpc
open Spec

/-! ### The life of a connection -/

theorem after_none (c : Conn) (l : List Effect) : l.foldl (Place.after c) none = none := by
  induction l with
  | nil => rfl
  | cons e l ih =>
    rw [List.foldl_cons]
    have : Place.after c none e = none := by
      cases e <;> simp [Place.after]
    rw [this, ih]

/-- Nothing happens to a closed connection. -/
theorem after_closed (c : Conn) (l : List Effect)
    (h : l.foldl (Place.after c) (some .closed) ≠ none) :
    (∀ e ∈ l, connOf e ≠ some c) ∧ l.foldl (Place.after c) (some .closed) = some .closed := by
  induction l with
  | nil => exact ⟨by simp, rfl⟩
  | cons e l ih =>
    rw [List.foldl_cons] at h ⊢
    by_cases he : connOf e = some c
    · have : Place.after c (some .closed) e = none := by
        cases e <;> simp_all [Place.after, connOf]
      rw [this, after_none] at h
      exact absurd rfl h
    · have : Place.after c (some .closed) e = some .closed := by
        cases e <;> simp_all [Place.after, connOf]
      rw [this] at h ⊢
      obtain ⟨h1, h2⟩ := ih h
      refine ⟨?_, h2⟩
      intro x hx
      rcases List.mem_cons.1 hx with rfl | hx
      · exact he
      · exact h1 x hx

/-- A closed connection was closed. -/
theorem closed_of_after (c : Conn) (l : List Effect) (pl : Option Place)
    (h : l.foldl (Place.after c) pl = some .closed) : pl = some .closed ∨ .closed c ∈ l := by
  induction l generalizing pl with
  | nil => exact .inl h
  | cons e l ih =>
    rw [List.foldl_cons] at h
    rcases ih _ h with h1 | h1
    · by_cases he : e = .closed c
      · subst he; exact .inr List.mem_cons_self
      · left
        have hplain : ∀ (d : Conn) (q : Option Place) (pl' : Place), pl' ≠ .closed →
            (if d = c then if pl = q then some pl' else none else pl) = some .closed →
            pl = some .closed := by
          intro d q pl' hpl h
          split at h
          · split at h
            · cases h; exact absurd rfl hpl
            · cases h
          · exact h
        cases e with
        | opened i a d => exact hplain _ _ _ (by simp) h1
        | took i a d => exact hplain _ _ _ (by simp) h1
        | returned i a d => exact hplain _ _ _ (by simp) h1
        | io i d =>
          simp only [Place.after] at h1
          split at h1
          · split at h1
            · exact h1
            · cases h1
          · exact h1
        | closed d =>
          have hd : ¬ d = c := fun hd => he (by rw [hd])
          simp only [Place.after, if_neg hd] at h1
          exact h1
        | refused i a => exact h1
        | reported a => exact h1
    · exact .inr (List.mem_cons_of_mem _ h1)

/-- A connection that was opened is not unborn anymore, and the other way round. -/
theorem opened_of_after (c : Conn) (l : List Effect) (pl : Option Place)
    (hn : l.foldl (Place.after c) pl ≠ none) :
    l.foldl (Place.after c) pl = some .unborn ↔
      pl = some .unborn ∧ ∀ i a, .opened i a c ∉ l := by
  induction l generalizing pl with
  | nil => simp
  | cons e l ih =>
    rw [List.foldl_cons] at hn ⊢
    rw [ih _ hn]
    have hne : Place.after c pl e ≠ none := by
      intro h; rw [h, after_none] at hn; exact hn rfl
    cases e with
    | opened i a d =>
      by_cases hd : d = c
      · subst hd
        by_cases hp : pl = some .unborn
        · simp only [Place.after, hp]
          simp
          exact ⟨i, a, by simp⟩
        · simp [Place.after, hp] at hne
      · have hd' : ¬ c = d := Ne.symm hd
        simp [Place.after, hd, hd']
    | took i a d =>
      by_cases hd : d = c
      · subst hd
        by_cases hp : pl = some .pool
        · simp [Place.after, hp]
        · simp [Place.after, hp] at hne
      · simp [Place.after, hd]
    | io i d =>
      by_cases hd : d = c
      · subst hd
        by_cases hp : pl = some (.call i)
        · simp [Place.after, hp]
        · simp [Place.after, hp] at hne
      · simp [Place.after, hd]
    | returned i a d =>
      by_cases hd : d = c
      · subst hd
        by_cases hp : pl = some (.call i)
        · simp [Place.after, hp]
        · simp [Place.after, hp] at hne
      · simp [Place.after, hd]
    | closed d =>
      by_cases hd : d = c
      · subst hd
        cases pl with
        | none => simp [Place.after] at hne
        | some pl => cases pl <;> simp [Place.after] at hne ⊢
      · simp [Place.after, hd]
    | refused i a => simp [Place.after]
    | reported a => simp [Place.after]

/-- A connection stays with a call until it is put back or closed. -/
theorem after_call (c : Conn) (i : Nat) (l : List Effect)
    (hn : l.foldl (Place.after c) (some (.call i)) ≠ none)
    (hr : ∀ a, .returned i a c ∉ l) :
    (l.foldl (Place.after c) (some (.call i)) = some (.call i) ∧
      ∀ e ∈ l, connOf e = some c → e = .io i c) ∨
    l.foldl (Place.after c) (some (.call i)) = some .closed := by
  induction l with
  | nil => exact .inl ⟨rfl, by simp⟩
  | cons e l ih =>
    rw [List.foldl_cons] at hn ⊢
    have hr' : ∀ a, .returned i a c ∉ l := fun a h => hr a (List.mem_cons_of_mem _ h)
    have hstay : Place.after c (some (.call i)) e = some (.call i) →
        (connOf e = some c → e = .io i c) →
        (l.foldl (Place.after c) (Place.after c (some (.call i)) e) = some (.call i) ∧
          ∀ x ∈ e :: l, connOf x = some c → x = .io i c) ∨
        l.foldl (Place.after c) (Place.after c (some (.call i)) e) = some .closed := by
      intro h1 h2
      rw [h1] at hn ⊢
      rcases ih hn hr' with ⟨h3, h4⟩ | h3
      · refine .inl ⟨h3, ?_⟩
        intro x hx hxc
        rcases List.mem_cons.1 hx with rfl | hx
        · exact h2 hxc
        · exact h4 x hx hxc
      · exact .inr h3
    have hne : Place.after c (some (.call i)) e ≠ none := by
      intro h; rw [h, after_none] at hn; exact hn rfl
    cases e with
    | opened j a d =>
      by_cases hd : d = c
      · simp [Place.after, hd] at hne
      · exact hstay (by simp [Place.after, hd]) (by simp [connOf, hd])
    | took j a d =>
      by_cases hd : d = c
      · simp [Place.after, hd] at hne
      · exact hstay (by simp [Place.after, hd]) (by simp [connOf, hd])
    | io j d =>
      by_cases hd : d = c
      · by_cases hj : i = j
        · subst hj hd; exact hstay (by simp [Place.after]) (by simp)
        · simp [Place.after, hd, hj] at hne
      · exact hstay (by simp [Place.after, hd]) (by simp [connOf, hd])
    | returned j a d =>
      by_cases hd : d = c
      · by_cases hj : i = j
        · subst hj hd; exact absurd List.mem_cons_self (hr a)
        · simp [Place.after, hd, hj] at hne
      · exact hstay (by simp [Place.after, hd]) (by simp [connOf, hd])
    | closed d =>
      by_cases hd : d = c
      · right
        subst hd
        have : Place.after d (some (.call i)) (.closed d) = some .closed := by simp [Place.after]
        rw [this] at hn ⊢
        exact (after_closed d l hn).2
      · exact hstay (by simp [Place.after, hd]) (by simp [connOf, hd])
    | refused j a => exact hstay rfl (by simp [connOf])
    | reported a => exact hstay rfl (by simp [connOf])

/-- After call `i` did something with `c` it has it, unless it put it back. -/
theorem by_place {c : Conn} {i : Nat} {l : List Effect} {e : Effect} (he : By i c e)
    (hn : life c (l ++ [e]) ≠ none) (hr : ∀ a, e ≠ .returned i a c) :
    life c (l ++ [e]) = some (.call i) := by
  rw [life_snoc] at hn ⊢
  cases e with
  | opened j a d =>
    obtain ⟨rfl, rfl⟩ := he
    by_cases hp : life d l = some .unborn
    · simp [Place.after, hp]
    · simp [Place.after, hp] at hn
  | took j a d =>
    obtain ⟨rfl, rfl⟩ := he
    by_cases hp : life d l = some .pool
    · simp [Place.after, hp]
    · simp [Place.after, hp] at hn
  | io j d =>
    obtain ⟨rfl, rfl⟩ := he
    by_cases hp : life d l = some (.call j)
    · simp [Place.after, hp]
    · simp [Place.after, hp] at hn
  | returned j a d =>
    obtain ⟨rfl, rfl⟩ := he
    exact absurd rfl (hr a)
  | refused j a => cases he
  | closed d => cases he
  | reported a => cases he

theorem life_prefix {c : Conn} {l l' : List Effect} (h : life c (l ++ l') ≠ none) :
    life c l ≠ none := by
  intro hl
  rw [life_append, hl, after_none] at h
  exact h rfl

/-! ### C46 -/

section
variable [FloatText]

theorem reach_inv (size : Nat) (evs : List SysEvent) :
    Sys.Inv (Sys.run evs (.new size)).1 (Sys.run evs (.new size)).2 := by
  have := Sys.inv_run (Sys.inv_new size) evs
  rwa [List.nil_append] at this

theorem reach_places (size : Nat) (evs : List SysEvent) :
    ∃ xs, (Sys.run evs (.new size)).2.pooled xs ∧
      Places (Sys.run evs (.new size)).1 (Sys.run evs (.new size)).2.hold xs
        (Sys.run evs (.new size)).2.next (Sys.run evs (.new size)).2.addrOf :=
  Sys.inv_pool.1 (reach_inv size evs).pool

/-- **C46**: in every execution every connection has a proper life: it is opened once, used by one
call at a time, put back by the call that uses it, and after it is closed nothing happens to it. -/
theorem C46_lives (size : Nat) (evs : List SysEvent) (c : Conn) :
    life c (Sys.run evs (.new size)).1 ≠ none := by
  obtain ⟨xs, -, h⟩ := reach_places size evs
  exact h.legal c

/-- **C46**: whatever is done with a connection after it is closed, nothing is. -/
theorem C46_closed_is_final (size : Nat) (evs : List SysEvent) (c : Conn) (l l' : List Effect)
    (h : (Sys.run evs (.new size)).1 = l ++ .closed c :: l') : ∀ e ∈ l', connOf e ≠ some c := by
  have hl := C46_lives size evs c
  rw [h, ← List.singleton_append, ← List.append_assoc, life_append] at hl
  have hc : life c (l ++ [.closed c]) = some .closed := by
    cases hp : life c (l ++ [.closed c]) with
    | none => rw [hp, after_none] at hl; exact absurd rfl hl
    | some pl =>
      rw [life_snoc] at hp
      cases hq : life c l with
      | none => simp [Place.after, hq] at hp
      | some q => cases q <;> simp_all [Place.after]
  rw [hc] at hl
  exact (after_closed c l' hl).1

/-- **C46**: if call `i` does something with a connection and later another call does, then the
first put it back in between (or at this point). -/
theorem C46_handover (size : Nat) (evs : List SysEvent) (c : Conn) (i j : Nat) (e e' : Effect)
    (l l' l'' : List Effect)
    (h : (Sys.run evs (.new size)).1 = l ++ e :: (l' ++ e' :: l''))
    (he : By i c e) (he' : By j c e') (hij : i ≠ j) : ∃ a, .returned i a c ∈ e :: l' := by
  have hl := C46_lives size evs c
  rw [h, ← List.singleton_append, ← List.append_assoc, ← List.singleton_append (l := l''),
    ← List.append_assoc l', ← List.append_assoc] at hl
  have hl := life_prefix hl
  rw [← List.append_assoc] at hl
  by_cases hr : ∃ a, e = .returned i a c
  · obtain ⟨a, rfl⟩ := hr
    exact ⟨a, List.mem_cons_self⟩
  · have h1 := by_place he (life_prefix (life_prefix hl)) fun a ha => hr ⟨a, ha⟩
    by_cases hr' : ∃ a, .returned i a c ∈ l'
    · obtain ⟨a, ha⟩ := hr'
      exact ⟨a, List.mem_cons_of_mem _ ha⟩
    · exfalso
      have h2 : life c (l ++ [e] ++ l') = some (.call i) ∨
          life c (l ++ [e] ++ l') = some .closed := by
        have := life_prefix hl
        rw [life_append, h1] at this ⊢
        rcases after_call c i l' this fun a ha => hr' ⟨a, ha⟩ with h3 | h3
        · exact .inl h3.1
        · exact .inr h3
      rw [life_snoc] at hl
      generalize life c (l ++ [e] ++ l') = pl at hl h2
      cases e' with
      | opened k a d => obtain ⟨rfl, rfl⟩ := he'; rcases h2 with rfl | rfl <;> simp [Place.after] at hl
      | took k a d => obtain ⟨rfl, rfl⟩ := he'; rcases h2 with rfl | rfl <;> simp [Place.after] at hl
      | io k d =>
        obtain ⟨rfl, rfl⟩ := he'
        rcases h2 with rfl | rfl <;> simp [Place.after] at hl
        exact hij hl
      | returned k a d =>
        obtain ⟨rfl, rfl⟩ := he'
        rcases h2 with rfl | rfl <;> simp [Place.after] at hl
        exact hij hl
      | refused k a => cases he'
      | closed d => cases he'
      | reported a => cases he'

omit [FloatText] in
theorem callConn_eq (y : PCall) : callConn y = holdOf y.st := by
  obtain ⟨p, a, st⟩ := y
  cases st with
  | replied inner f => cases f <;> rfl
  | _ => rfl

omit [FloatText] in
theorem places_calls {log : List Effect} {xs : List (Addr × Conn)} {next : Nat}
    {addr : Nat → Option Addr} (ys : List PCall) {hold : Nat → Option Conn}
    (h : Places log hold xs next addr) (k : Nat)
    (hk : ∀ i, hold (k + i) = ys[i]?.bind fun y => holdOf y.st) :
    (ys.filterMap callConn).Nodup ∧
      ∀ c, c ∈ ys.filterMap callConn ↔ ∃ i, k ≤ i ∧ hold i = some c := by
  induction ys generalizing k with
  | nil =>
    refine ⟨by simp, ?_⟩
    intro c
    simp only [List.filterMap_nil, List.not_mem_nil, false_iff]
    rintro ⟨i, hi, hc⟩
    obtain ⟨n, rfl⟩ := Nat.exists_eq_add_of_le hi
    rw [hk] at hc
    cases hc
  | cons y ys ih =>
    have hk' : ∀ i, hold (k + 1 + i) = ys[i]?.bind fun y => holdOf y.st := by
      intro i
      have := hk (i + 1)
      rw [List.getElem?_cons_succ] at this
      rw [← this]
      congr 1
      omega
    obtain ⟨h1, h2⟩ := ih (k + 1) hk'
    have h0 : hold k = holdOf y.st := hk 0
    have hmem : ∀ c, c ∈ (y :: ys).filterMap callConn ↔ ∃ i, k ≤ i ∧ hold i = some c := by
      intro c
      rw [List.filterMap_cons, callConn_eq, ← h0]
      have hsplit : (∃ i, k ≤ i ∧ hold i = some c) ↔
          hold k = some c ∨ ∃ i, k + 1 ≤ i ∧ hold i = some c := by
        constructor
        · rintro ⟨i, hi, hc⟩
          rcases Nat.eq_or_lt_of_le hi with rfl | hi
          · exact .inl hc
          · exact .inr ⟨i, hi, hc⟩
        · rintro (hc | ⟨i, hi, hc⟩)
          · exact ⟨k, Nat.le_refl _, hc⟩
          · exact ⟨i, by omega, hc⟩
      rw [hsplit, ← h2 c]
      cases hold k with
      | none => simp
      | some d => simp [eq_comm]
    refine ⟨?_, hmem⟩
    rw [List.filterMap_cons, callConn_eq, ← h0]
    cases hd : hold k with
    | none => exact h1
    | some d =>
      refine List.nodup_cons.2 ⟨?_, h1⟩
      intro hm
      obtain ⟨i, hi, hc⟩ := (h2 d).1 hm
      have := h.inj hc hd
      omega

/-- **C46**: at every moment of every execution each connection is in at most one place: idle in
the pool, in a command, or with one call (in its reply or in use).  The connections in some place
are those opened and not closed. -/
theorem C46_one_place (size : Nat) (evs : List SysEvent) :
    (places (Sys.run evs (.new size)).2).Nodup ∧
    ∀ c, c ∈ places (Sys.run evs (.new size)).2 ↔
      (∃ i a, .opened i a c ∈ (Sys.run evs (.new size)).1) ∧
      .closed c ∉ (Sys.run evs (.new size)).1 := by
  obtain ⟨xs, hp, h⟩ := reach_places size evs
  have hfin := C46_closed_is_final size evs
  generalize (Sys.run evs (.new size)).2 = s at hp h
  generalize (Sys.run evs (.new size)).1 = log at h hfin
  obtain ⟨hn, hc⟩ := places_calls s.calls h 0 (by intro i; rw [Nat.zero_add]; rfl)
  have hperm : (idleConns s.pool ++ queuedConns s.queue).Perm (xs.map Prod.snd) := by
    unfold Sys.pooled at hp
    rw [queued_conns]
    cases hpool : s.pool with
    | none => rw [hpool] at hp; obtain ⟨h1, rfl⟩ := hp; rw [h1]; exact .refl _
    | some p =>
      rw [hpool] at hp
      obtain ⟨size', ip, h1, rfl⟩ := hp
      obtain ⟨ys, h2, h3⟩ := pool_idle h1
      rw [List.map_append, idleConns, ← h2]
      exact (h3.symm.map _).append_right _
  unfold places
  constructor
  · rw [List.nodup_append]
    refine ⟨hperm.nodup_iff.2 h.nodup, hn, ?_⟩
    intro c h1 d h2 hcd
    subst hcd
    have h1 := (h.idle c).2 (hperm.mem_iff.1 h1)
    obtain ⟨i, -, h2⟩ := (hc c).1 h2
    rw [(h.held c i).2 h2] at h1
    cases h1
  · intro c
    have hmem : (c ∈ xs.map Prod.snd ∨ c ∈ s.calls.filterMap callConn) ↔
        life c log = some .pool ∨ ∃ i, life c log = some (.call i) := by
      rw [h.idle, hc c]
      simp only [Nat.zero_le, true_and, h.held]
    rw [List.mem_append, hperm.mem_iff, hmem]
    have hopen : (∃ i a, .opened i a c ∈ log) ↔ life c log ≠ some .unborn := by
      rw [life, Ne, opened_of_after c log (some .unborn) (h.legal c)]
      simp
    have hclosed : .closed c ∈ log ↔ life c log = some .closed := by
      constructor
      · intro hm
        obtain ⟨l, l', rfl⟩ := List.append_of_mem hm
        have h1 := h.legal c
        rw [← List.singleton_append, ← List.append_assoc, life_append] at h1 ⊢
        have h2 : life c (l ++ [.closed c]) = some .closed := by
          cases hp : life c (l ++ [.closed c]) with
          | none => rw [hp, after_none] at h1; exact absurd rfl h1
          | some pl =>
            rw [life_snoc] at hp
            cases hq : life c l with
            | none => simp [Place.after, hq] at hp
            | some q => cases q <;> simp_all [Place.after]
        rw [h2] at h1 ⊢
        exact (after_closed c l' h1).2
      · intro hl
        rcases closed_of_after c log _ hl with h1 | h1
        · cases h1
        · exact h1
    rw [hopen, hclosed]
    have := h.legal c
    cases hl : life c log with
    | none => exact absurd hl this
    | some pl => cases pl <;> simp

/-! ### C47 -/

/-- **C47**: whatever a call does with a connection, the connection was opened to the address of the
call. -/
theorem C47_own_address (size : Nat) (evs : List SysEvent) (i : Nat) (c : Conn) (e : Effect)
    (he : e ∈ (Sys.run evs (.new size)).1) (hi : By i c e) :
    ∃ y, (Sys.run evs (.new size)).2.calls[i]? = some y ∧
      ∃ j, .opened j y.addr c ∈ (Sys.run evs (.new size)).1 := by
  obtain ⟨xs, -, h⟩ := reach_places size evs
  have key : ∀ a, (Sys.run evs (.new size)).2.addrOf i = some a →
      OpenedTo (Sys.run evs (.new size)).1 a c →
      ∃ y, (Sys.run evs (.new size)).2.calls[i]? = some y ∧
      ∃ j, .opened j y.addr c ∈ (Sys.run evs (.new size)).1 := by
    intro a ha ho
    unfold Sys.addrOf at ha
    cases hy : (Sys.run evs (.new size)).2.calls[i]? with
    | none => rw [hy] at ha; cases ha
    | some y => rw [hy] at ha; cases ha; exact ⟨y, rfl, ho⟩
  cases e with
  | opened j a d =>
    obtain ⟨rfl, rfl⟩ := hi
    exact key a (h.openedPeer _ _ _ he) ⟨_, he⟩
  | took j a d =>
    obtain ⟨rfl, rfl⟩ := hi
    obtain ⟨h1, h2⟩ := h.tookPeer _ _ _ he
    exact key a h1 h2
  | io j d =>
    obtain ⟨rfl, rfl⟩ := hi
    obtain ⟨a, h1, h2⟩ := h.ioPeer _ _ he
    exact key a h1 h2
  | returned j a d =>
    obtain ⟨rfl, rfl⟩ := hi
    obtain ⟨h1, h2⟩ := h.returnedPeer _ _ _ he
    exact key a h1 h2
  | refused j a => cases hi
  | closed d => cases hi
  | reported a => cases hi

/-- **C47**: a connection is opened only once, so to one address only. -/
theorem C47_one_peer (size : Nat) (evs : List SysEvent) (i j : Nat) (a b : Addr) (c : Conn)
    (hi : .opened i a c ∈ (Sys.run evs (.new size)).1)
    (hj : .opened j b c ∈ (Sys.run evs (.new size)).1) : i = j ∧ a = b := by
  have hl := C46_lives size evs c
  generalize (Sys.run evs (.new size)).1 = log at hi hj hl
  obtain ⟨l, l', rfl⟩ := List.append_of_mem hi
  have hsecond : ∀ (l0 l1 l2 : List Effect) (i j : Nat) (a b : Addr),
      life c (l0 ++ .opened i a c :: (l1 ++ .opened j b c :: l2)) ≠ none → False := by
    intro l0 l1 l2 i j a b h
    rw [← List.singleton_append, ← List.append_assoc, ← List.singleton_append (l := l2),
      ← List.append_assoc l1, ← List.append_assoc] at h
    have h := life_prefix h
    rw [← List.append_assoc, life_snoc] at h
    have h1 : life c (l0 ++ [.opened i a c] ++ l1) = some .unborn := by
      by_cases h1 : life c (l0 ++ [.opened i a c] ++ l1) = some .unborn
      · exact h1
      · rw [Place.after, if_pos rfl, if_neg h1] at h
        exact absurd rfl h
    have hn : life c (l0 ++ [.opened i a c] ++ l1) ≠ none := by rw [h1]; simp
    exact ((opened_of_after c _ _ hn).1 h1).2 i a (by simp)
  rcases List.mem_append.1 hj with hj | hj
  · obtain ⟨l1, l2, rfl⟩ := List.append_of_mem hj
    rw [List.append_assoc, List.cons_append] at hl
    exact (hsecond _ _ _ _ _ _ _ hl).elim
  · rcases List.mem_cons.1 hj with hj | hj
    · cases hj; exact ⟨rfl, rfl⟩
    · obtain ⟨l1, l2, rfl⟩ := List.append_of_mem hj
      exact (hsecond _ _ _ _ _ _ _ hl).elim

/-! ### C52 -/

theorem reach_done (size : Nat) (evs : List SysEvent) :
    Sys.Done (Sys.run evs (.new size)).1 (Sys.run evs (.new size)).2 := by
  have := Sys.done_run (Sys.inv_new size) (Sys.done_new size) evs
  rwa [List.nil_append] at this

/-- **C52**: a call that completed with a response got exactly one connection and put exactly this
one back, once, for its address. -/
theorem C52_completed (size : Nat) (evs : List SysEvent) (i : Nat) (y : PCall) (v : Val)
    (body : Bytes) (hy : (Sys.run evs (.new size)).2.calls[i]? = some y)
    (hst : y.st = .done v body) :
    ∃ c, got i (Sys.run evs (.new size)).1 = [c] ∧
      returns i (Sys.run evs (.new size)).1 = [(y.addr, c)] := by
  have := (reach_done size evs).hist i y hy
  rw [hst] at this
  obtain ⟨c, h1, h2, -⟩ := this
  exact ⟨c, h1, h2⟩

/-- **C52**: every other call has put nothing back. -/
theorem C52_not_completed (size : Nat) (evs : List SysEvent) (i : Nat)
    (h : ∀ y v body, (Sys.run evs (.new size)).2.calls[i]? = some y → y.st ≠ .done v body) :
    returns i (Sys.run evs (.new size)).1 = [] := by
  have hd := reach_done size evs
  cases hy : (Sys.run evs (.new size)).2.calls[i]? with
  | none =>
    refine (hd.fresh i ?_).2.1
    rcases Nat.lt_or_ge i (Sys.run evs (.new size)).2.calls.length with hl | hl
    · rw [List.getElem?_eq_getElem hl] at hy; cases hy
    · exact hl
  | some y =>
    have hh := hd.hist i y hy
    cases hst : y.st with
    | done v b => exact absurd hst (h y v b hy)
    | replied inner f => rw [hst] at hh; cases f <;> exact hh.2.1
    | waiting inner => rw [hst] at hh; exact hh.2.1
    | active c inner => rw [hst] at hh; exact hh.2.1
    | failed k => rw [hst] at hh; exact hh.1
    | panicked => rw [hst] at hh; obtain ⟨c, -, h2, -⟩ := hh; exact h2
    | dropped => rw [hst] at hh; exact hh.2.1

/-- **C52**: the connection of a call that failed, panicked or was dropped is closed. -/
theorem C52_given_up (size : Nat) (evs : List SysEvent) (i : Nat) (y : PCall) (c : Conn)
    (hy : (Sys.run evs (.new size)).2.calls[i]? = some y)
    (hst : (∃ k, y.st = .failed k) ∨ y.st = .panicked ∨ y.st = .dropped)
    (hc : c ∈ got i (Sys.run evs (.new size)).1) :
    .closed c ∈ (Sys.run evs (.new size)).1 := by
  have hret := C52_not_completed size evs i (by
    intro y' v b hy' hd
    rw [hy] at hy'
    cases hy'
    rcases hst with ⟨k, h⟩ | h | h <;> rw [h] at hd <;> cases hd)
  obtain ⟨xs, -, h⟩ := reach_places size evs
  have hhold : (Sys.run evs (.new size)).2.hold i = none := by
    rw [Sys.hold_of hy]
    rcases hst with ⟨k, h⟩ | h | h <;> rw [h] <;> rfl
  have hl := h.legal c
  have hheld := h.held c i
  generalize (Sys.run evs (.new size)).1 = log at hret hc hl hheld
  have hby : ∃ e ∈ log, By i c e ∧ ∀ a, e ≠ .returned i a c := by
    rw [got, List.mem_filterMap] at hc
    obtain ⟨e, he, hc⟩ := hc
    refine ⟨e, he, ?_⟩
    cases e with
    | opened j a d => simp only at hc; split at hc <;> cases hc; exact ⟨⟨by assumption, rfl⟩, by simp⟩
    | took j a d => simp only at hc; split at hc <;> cases hc; exact ⟨⟨by assumption, rfl⟩, by simp⟩
    | _ => cases hc
  obtain ⟨e, he, hby, hnr⟩ := hby
  obtain ⟨l, l', rfl⟩ := List.append_of_mem he
  rw [← List.singleton_append, ← List.append_assoc] at hl hheld hret ⊢
  have h1 := by_place hby (life_prefix hl) hnr
  rw [life_append, h1] at hl hheld
  have hr : ∀ a, .returned i a c ∉ l' := by
    intro a ha
    have : (a, c) ∈ returns i (l ++ [e] ++ l') := by
      rw [returns, List.mem_filterMap]
      exact ⟨_, List.mem_append_right _ ha, by simp⟩
    rw [hret] at this
    cases this
  rcases after_call c i l' hl hr with ⟨h2, -⟩ | h2
  · rw [h2, hhold] at hheld
    simp at hheld
  · rcases closed_of_after c l' _ h2 with h3 | h3
    · cases h3
    · exact List.mem_append_right _ h3

/-! ### C51 -/

theorem reach_reports (size : Nat) (evs : List SysEvent) :
    Sys.Reports (Sys.run evs (.new size)).1 (Sys.run evs (.new size)).2 := by
  have := Sys.reports_run (Sys.inv_new size) (Sys.reports_new size) evs
  rwa [List.nil_append] at this

/-- **C51**: an address is suspended at most as often as connecting to it failed. -/
theorem C51_reports_at_most (size : Nat) (evs : List SysEvent) (a : Addr) :
    reportsOf a (Sys.run evs (.new size)).1 ≤ refusedTo a (Sys.run evs (.new size)).1 :=
  Nat.le_trans (Nat.le_add_right _ _) ((reach_reports size evs).atMost a)

/-- **C51**: every failed attempt is reported, as long as the pool lives: once the pool has handled
the commands in its queue, it has been suspended exactly as often. -/
theorem C51_reports_all (size : Nat) (evs : List SysEvent) (a : Addr)
    (hp : (Sys.run evs (.new size)).2.pool ≠ none)
    (hq : (Sys.run evs (.new size)).2.queue = []) :
    reportsOf a (Sys.run evs (.new size)).1 = refusedTo a (Sys.run evs (.new size)).1 := by
  have := (reach_reports size evs).exact hp a
  rw [hq] at this
  exact this

/-- **C51**: a suspended address is one to which connecting failed. -/
theorem C51_suspended_failed (size : Nat) (evs : List SysEvent) (a : Addr) (p : Pool)
    (hp : (Sys.run evs (.new size)).2.pool = some p) (ha : p.blacklist.lookup a ≠ none) :
    0 < refusedTo a (Sys.run evs (.new size)).1 :=
  Nat.lt_of_lt_of_le ((reach_reports size evs).suspended p hp a ha) (C51_reports_at_most size evs a)

/-- **C51**: only calls that got no connection and failed with `Other` had a failed attempt, one, to
their address.  So calls on reused connections, rejected calls and completed calls never cause a
suspension. -/
theorem C51_one_attempt (size : Nat) (evs : List SysEvent) (i : Nat) :
    refusals i (Sys.run evs (.new size)).1 = [] ∨
    ∃ y, (Sys.run evs (.new size)).2.calls[i]? = some y ∧ y.st = .failed .other ∧
      refusals i (Sys.run evs (.new size)).1 = [y.addr] ∧
      got i (Sys.run evs (.new size)).1 = [] := by
  have hd := reach_done size evs
  cases hy : (Sys.run evs (.new size)).2.calls[i]? with
  | none =>
    refine .inl (hd.fresh i ?_).2.2
    rcases Nat.lt_or_ge i (Sys.run evs (.new size)).2.calls.length with hl | hl
    · rw [List.getElem?_eq_getElem hl] at hy; cases hy
    · exact hl
  | some y =>
    have hh := hd.hist i y hy
    cases hst : y.st with
    | done v b => rw [hst] at hh; obtain ⟨c, -, -, h3⟩ := hh; exact .inl h3
    | replied inner f => rw [hst] at hh; left; cases f <;> exact hh.2.2
    | waiting inner => rw [hst] at hh; exact .inl hh.2.2
    | active c inner => rw [hst] at hh; exact .inl hh.2.2
    | failed k =>
      rw [hst] at hh
      rcases hh.2.2 with h | ⟨h1, h2, h3⟩
      · exact .inl h
      · exact .inr ⟨y, rfl, by rw [hst, h3], h1, h2⟩
    | panicked => rw [hst] at hh; obtain ⟨c, -, -, h3⟩ := hh; exact .inl h3
    | dropped => rw [hst] at hh; exact .inl hh.2.2

/-- Rejected calls are calls to addresses to which connecting failed before. -/
def Sys.Rejected (log : List Effect) (s : Sys) : Prop :=
  ∀ (i : Nat) (y : PCall) (inner : CallInner), s.calls[i]? = some y →
    y.st = .replied inner .failed → 0 < refusedTo y.addr log

omit [FloatText] in
theorem rejected_mono {log es : List Effect} {s : Sys} (h : Sys.Rejected log s) :
    Sys.Rejected (log ++ es) s := by
  intro i y inner hy hst
  rw [Sys.refusedTo_append]
  exact Nat.lt_of_lt_of_le (h i y inner hy hst) (Nat.le_add_right _ _)

omit [FloatText] in
theorem rejected_setCall {log : List Effect} {s : Sys} (h : Sys.Rejected log s) (i : Nat)
    (y : PCall) (hy : ∀ inner, y.st = .replied inner .failed → 0 < refusedTo y.addr log) :
    Sys.Rejected log (s.setCall i y) := by
  intro j z inner hz hst
  simp only [Sys.setCall, List.getElem?_set] at hz
  split at hz
  · split at hz
    · cases hz; exact hy _ hst
    · cases hz
  · exact h j z inner hz hst

omit [FloatText] in
theorem rejected_calls {log : List Effect} {s s' : Sys} (h : Sys.Rejected log s)
    (hc : s'.calls = s.calls) : Sys.Rejected log s' := by
  unfold Sys.Rejected
  rw [hc]
  exact h

omit [FloatText] in
theorem rejected_settle {log : List Effect} {s : Sys} (h : Sys.Rejected log s) (i : Nat)
    (y : PCall) (c : Conn) (inner : CallInner) (o : CallOutcome) :
    Sys.Rejected log (s.settle i y c inner o).2 := by
  cases o with
  | ready v b => exact rejected_calls (rejected_setCall h _ _ (by simp)) (Sys.send_calls _ _)
  | _ => exact rejected_setCall h _ _ (by simp)

theorem rejected_step {log : List Effect} {s : Sys} (hi : Sys.Inv log s)
    (hr : Sys.Reports log s) (h : Sys.Rejected log s) (e : SysEvent) :
    Sys.Rejected (log ++ (s.step e).1) (s.step e).2 := by
  refine rejected_mono ?_
  cases e with
  | call p a v body =>
    refine rejected_calls (s := { s with calls := s.calls ++ [⟨p, a, .waiting (.new v body)⟩] }) ?_
      (Sys.send_calls _ _)
    intro i y inner hy hst
    simp only at hy
    rcases Nat.lt_or_ge i s.calls.length with hl | hl
    · rw [List.getElem?_append_left hl] at hy
      exact h i y inner hy hst
    · rw [List.getElem?_append_right hl] at hy
      cases hk : i - s.calls.length with
      | zero => rw [hk] at hy; cases hy; cases hst
      | succ n => rw [hk] at hy; cases hy
  | handle now =>
    rw [Sys.step]
    have hp := hi.pool
    unfold Sys.handle
    cases hpool : s.pool with
    | none => exact h
    | some p =>
      rw [hpool] at hp
      obtain ⟨size, ip, h1, -⟩ := hp
      cases hq : s.queue with
      | nil => exact h
      | cons cmd q =>
        cases cmd with
        | acquire a i =>
          obtain ⟨f, p', ip', e1, -, e3, -⟩ := pool_acquire h1 a now
          simp only [Cmd.event, e1]
          unfold Sys.reply
          split
          · next pr b inner hy =>
            refine rejected_setCall (s := { s with pool := some p', queue := q }) h _ _ ?_
            intro inner' hst
            cases hst
            have hb : b = a := by
              have := hi.acquires a i (by rw [hq]; exact List.mem_cons_self)
              rw [Sys.addr_of (s := s) (y := ⟨pr, b, .waiting inner⟩) hy] at this
              cases this
              rfl
            subst hb
            refine Nat.lt_of_lt_of_le (hr.suspended p hpool b ?_)
              (Nat.le_trans (Nat.le_add_right _ _) (hr.atMost b))
            rw [h1.blacklist]
            exact e3.2
          · exact h
        | release a c =>
          rcases pool_release h1 a c with e1 | ⟨xs, p', ip', e1, -, -, -⟩
          · simp only [Cmd.event, e1]
            exact rejected_calls h (Sys.dropPool_calls s)
          · simp only [Cmd.event, e1]
            exact h
        | blacklist a =>
          rcases pool_blacklist h1 a now with e1 | ⟨p', ip', e1, -, -, -⟩
          · simp only [Cmd.event, e1]
            exact rejected_calls h (Sys.dropPool_calls s)
          · simp only [Cmd.event, e1]
            exact h
  | setSuspended d => exact h
  | dropPool => exact rejected_calls h (Sys.dropPool_calls s)
  | poll i r =>
    rw [Sys.step, Sys.poll]
    split
    · exact h
    · split
      · split
        · exact h
        · exact rejected_setCall h _ _ (by simp)
      · exact rejected_settle h _ _ _ _ _
      · exact rejected_setCall h _ _ (by simp)
      · split
        · exact rejected_settle (s := { s with next := s.next + 1 }) h _ _ _ _ _
        · exact rejected_calls (rejected_setCall h _ _ (by simp)) (Sys.send_calls _ _)
        · exact h
      · exact rejected_settle h _ _ _ _ _
      · exact h
  | dropCall i =>
    rw [Sys.step, Sys.dropCall]
    split
    · exact h
    · split <;> first
        | exact h
        | exact rejected_setCall h _ _ (by simp)

/-- **C51**: a call that the pool rejects because its address is suspended is one to an address to
which connecting failed before. -/
theorem C51_rejected (size : Nat) (evs : List SysEvent) (i : Nat) (y : PCall) (inner : CallInner)
    (hy : (Sys.run evs (.new size)).2.calls[i]? = some y) (hst : y.st = .replied inner .failed) :
    0 < refusedTo y.addr (Sys.run evs (.new size)).1 := by
  have key : ∀ (evs : List SysEvent) (log : List Effect) (s : Sys), Sys.Inv log s →
      Sys.Reports log s → Sys.Rejected log s →
      Sys.Rejected (log ++ (Sys.run evs s).1) (Sys.run evs s).2 := by
    intro evs
    induction evs with
    | nil => intro log s _ _ h; rw [Sys.run, List.append_nil]; exact h
    | cons e evs ih =>
      intro log s h1 h2 h3
      have := ih _ _ (Sys.inv_step h1 e) (Sys.reports_step h1 h2 e) (rejected_step h1 h2 h3 e)
      rw [List.append_assoc] at this
      exact this
  have := key evs [] _ (Sys.inv_new size) (Sys.reports_new size) (by
    intro i y inner hy; simp [Sys.new] at hy)
  exact this i y inner hy hst

/-! ### C53 -/

/-- **C53**: a call that waits for its connection after the pool was dropped fails with `Other` as
soon as it is polled. -/
theorem C53_orphan_fails (s : Sys) (i : Nat) (y : PCall) (inner : CallInner) (r : IoResult)
    (hp : s.pool = none) (hy : s.calls[i]? = some y) (hst : y.st = .waiting inner) :
    (s.poll i r).2.calls[i]? = some { y with st := .failed .other } := by
  have hlt := Sys.lt_of_some hy
  simp only [Sys.poll, hy, hst, hp, Sys.setCall, List.getElem?_set]
  simp [hlt]

/-- **C53**: a call made after the pool was dropped fails with `Other` as soon as it is polled. -/
theorem C53_late_call_fails (s : Sys) (p : Proc) (a : Addr) (v : Val) (body : Bytes) (r : IoResult)
    (hp : s.pool = none) :
    (Sys.run [.call p a v body, .poll s.calls.length r] s).2.calls[s.calls.length]? =
      some ⟨p, a, .failed .other⟩ := by
  simp only [Sys.run, Sys.step, Sys.call]
  refine C53_orphan_fails _ _ ⟨p, a, .waiting (.new v body)⟩ _ r ?_ ?_ rfl
  · rw [Sys.send_pool]; exact hp
  · rw [Sys.send_calls]; simp

/-- **C53**: a dropped pool stays dropped. -/
theorem C53_dropped_stays (s : Sys) (evs : List SysEvent) (hp : s.pool = none) :
    (Sys.run evs s).2.pool = none := by
  induction evs generalizing s with
  | nil => exact hp
  | cons e evs ih =>
    refine ih _ ?_
    show (s.step e).2.pool = none
    have hsettle : ∀ (t : Sys) i y c inner o, t.pool = none →
        (t.settle i y c inner o).2.pool = none := by
      intro t i y c inner o ht
      rw [(Sys.settle_calm i y c inner t o).2.1]
      exact ht
    cases e with
    | call p a v body => rw [Sys.step, Sys.call, Sys.send_pool]; exact hp
    | handle now => rw [Sys.step, Sys.handle, hp]; exact hp
    | setSuspended d => simp [Sys.step, hp]
    | dropPool => exact Sys.dropPool_pool s
    | poll i r =>
      rw [Sys.step, Sys.poll]
      split
      · exact hp
      · split
        · split
          · exact hp
          · exact hp
        · exact hsettle _ _ _ _ _ _ hp
        · exact hp
        · split
          · exact hsettle { s with next := s.next + 1 } _ _ _ _ _ hp
          · rw [Sys.send_pool]; exact hp
          · exact hp
        · exact hsettle _ _ _ _ _ _ hp
        · exact hp
    | dropCall i =>
      rw [Sys.step, Sys.dropCall]
      split
      · exact hp
      · split <;> exact hp

/-- **C53**: as long as the pool lives it answers: once it has handled as many commands as were in
its queue, whatever else happens meanwhile, no call that existed before is still waiting (unless the
pool was dropped, and then the call fails, see above). -/
theorem C53_answered (size : Nat) (evs evs' : List SysEvent) (i : Nat) (y : PCall)
    (inner : CallInner)
    (hi : i < (Sys.run evs (.new size)).2.calls.length)
    (hn : (Sys.run evs (.new size)).2.queue.length ≤ handles evs')
    (hy : (Sys.run evs' (Sys.run evs (.new size)).2).2.calls[i]? = some y)
    (hst : y.st = .waiting inner) : (Sys.run evs' (Sys.run evs (.new size)).2).2.pool = none := by
  have hinv := reach_inv size evs
  have hs := Sys.allServed_run (Sys.allServed_new size) evs [] (Sys.inv_new size) i hi
  have hr := Sys.served_run hs evs' _ hinv
  rw [Nat.sub_eq_zero_of_le hn] at hr
  rcases hr.2 with h | h | ⟨a, h⟩
  · exact h
  · exact absurd ⟨y, inner, hy, hst⟩ h
  · cases h

end

/-! ### Examples -/

section Examples

/-- Two calls for `exA`, the second reusing the connection; a failed attempt for `exB`, after which
a call to `exB` is rejected; the pool is dropped while the second call is active and a last one
waits. -/
def exEvents : List SysEvent :=
  [.call exProc exA exCallArgs [1], .poll 0 .notReady, .handle 0, .poll 0 .notReady,
   .poll 0 .connected, .poll 0 .written, .poll 0 (.head 404 []), .poll 0 (.body [7]),
   .call exProc exA exCallArgs [1], .handle 1, .handle 2, .poll 1 .notReady,
   .call exProc exB exCallArgs [1], .handle 3, .poll 2 .failed, .handle 4,
   .call exProc exB exCallArgs [1], .handle 5,
   .call exProc exB exCallArgs [1], .dropPool, .poll 3 .notReady, .poll 4 .notReady,
   .poll 1 .written, .dropCall 1]

def exLog : List Effect :=
  [.opened 0 exA 0, .io 0 0, .io 0 0, .io 0 0, .returned 0 exA 0, .took 1 exA 0,
   .refused 2 exB, .reported exB, .io 1 0, .closed 0]

theorem exRun : letI := toyFloat
    ∃ s, Sys.run exEvents (.new 3) = (exLog, s) ∧ s.calls = [
      ⟨exProc, exA, .done (.unitVariant "NotFound".toList) [7]⟩,
      ⟨exProc, exA, .dropped⟩,
      ⟨exProc, exB, .failed .other⟩,
      ⟨exProc, exB, .failed .other⟩,
      ⟨exProc, exB, .failed .other⟩] := by
  let := toyFloat
  obtain ⟨r, hr⟩ := exCall_sent [1]
  have hd : deResponse exProc.resTy 404 [] = .ok (.unitVariant "NotFound".toList) := rfl
  have hm : exProc.method ≠ .head := by decide
  simp [exEvents, exLog, Sys.run, Sys.step, Sys.call, Sys.send, Sys.new, Sys.poll, Sys.handle,
    Cmd.event, Pool.step, Pool.handleAcquire, Pool.acquire, Pool.withSize, BTreeMap.firstFrom,
    Sys.reply, Sys.setCall, CallInner.new, hr, Sys.settle, callStep, callDecode, hd, hm, Pool.release,
    BTreeMap.insert, BTreeMap.remove, Pool.dropExceeded, ConnId.lt, natLt, exA, exB,
    Pool.handleBlacklist, timeEnd, Pool.enlist, Pool.unlist, Sys.dropPool, queuedConns, Sys.dropCall]

/-- `C46_handover`: call 1 uses the connection of call 0, which put it back. -/
example : letI := toyFloat; ∃ l l' l'', (Sys.run exEvents (.new 3)).1 =
    l ++ .io 0 0 :: (l' ++ .took 1 exA 0 :: l'') := by
  let := toyFloat
  obtain ⟨s, h, -⟩ := exRun
  rw [h]
  exact ⟨[.opened 0 exA 0, .io 0 0, .io 0 0], [.returned 0 exA 0], _, rfl⟩

/-- `C46_one_place`, `C46_closed_is_final`: connection 0 is closed at the end. -/
example : letI := toyFloat; 0 ∉ places (Sys.run exEvents (.new 3)).2 := by
  let := toyFloat
  obtain ⟨s, h, -⟩ := exRun
  rw [(C46_one_place 3 exEvents).2, h]
  simp [exLog]

/-- `C52_completed`: call 0. -/
example : letI := toyFloat; ∃ c, got 0 (Sys.run exEvents (.new 3)).1 = [c] ∧
    returns 0 (Sys.run exEvents (.new 3)).1 = [(exA, c)] := by
  let := toyFloat
  obtain ⟨s, h, hc⟩ := exRun
  exact C52_completed 3 exEvents 0 ⟨exProc, exA, .done _ _⟩ _ _ (by rw [h, hc]; rfl) rfl

/-- `C52_given_up`: call 1 is dropped with its connection. -/
example : letI := toyFloat; .closed 0 ∈ (Sys.run exEvents (.new 3)).1 := by
  let := toyFloat
  obtain ⟨s, h, hc⟩ := exRun
  exact C52_given_up 3 exEvents 1 ⟨exProc, exA, .dropped⟩ 0 (by rw [h, hc]; rfl) (.inr (.inr rfl))
    (by rw [h]; show 0 ∈ got 1 exLog; decide)

/-- `C51_one_attempt`: the second case occurs, for call 2. -/
example : letI := toyFloat; refusals 2 (Sys.run exEvents (.new 3)).1 = [exB] ∧
    reportsOf exB (Sys.run exEvents (.new 3)).1 = 1 := by
  let := toyFloat
  obtain ⟨s, h, hc⟩ := exRun
  rw [h]
  show refusals 2 exLog = [exB] ∧ reportsOf exB exLog = 1
  decide

/-- `C51_rejected`, `C51_suspended_failed`: after the first eighteen events call 3 is rejected. -/
example : letI := toyFloat; ∃ y inner,
    (Sys.run (exEvents.take 18) (.new 3)).2.calls[3]? = some y ∧ y.st = .replied inner .failed := by
  let := toyFloat
  obtain ⟨r, hr⟩ := exCall_sent [1]
  have hd : deResponse exProc.resTy 404 [] = .ok (.unitVariant "NotFound".toList) := rfl
  have hm : exProc.method ≠ .head := by decide
  simp [exEvents, Sys.run, Sys.step, Sys.call, Sys.send, Sys.new, Sys.poll, Sys.handle,
    Cmd.event, Pool.step, Pool.handleAcquire, Pool.acquire, Pool.withSize, BTreeMap.firstFrom,
    Sys.reply, Sys.setCall, CallInner.new, hr, Sys.settle, callStep, callDecode, hd, hm,
    Pool.release, BTreeMap.insert, BTreeMap.remove, Pool.dropExceeded, ConnId.lt, natLt, exA, exB,
    Pool.handleBlacklist, timeEnd, Pool.enlist, Pool.unlist]

/-- `C53_answered`: one call waits; the pool handles one command while the call is polled. -/
example (now : Time) (y : PCall) (inner : CallInner) : letI := toyFloat
    (Sys.run [.poll 0 .notReady, .handle now, .poll 0 .notReady]
      (Sys.run [.call exProc exA exCallArgs []] (.new 1)).2).2.calls[0]? = some y →
    y.st = .waiting inner → False := by
  let := toyFloat
  intro hy hst
  have := C53_answered 1 [.call exProc exA exCallArgs []]
    [.poll 0 .notReady, .handle now, .poll 0 .notReady] 0 y inner (by decide) (Nat.le_refl 1) hy hst
  cases this

/-- `C53_orphan_fails`, `C53_late_call_fails`: the pool can be dropped while a call waits. -/
example : letI := toyFloat
    (Sys.run [.call exProc exA exCallArgs [], .dropPool] (.new 1)).2.pool = none := by
  let := toyFloat
  rfl

end Examples

end Htrpc
