/-
Where connections are: abstract moves.
-/
import Verif.Spec.PoolSystem
import Verif.Props.Pool

namespace Htrpc
open Spec

theorem life_append (c : Conn) (l l' : List Effect) :
    life c (l ++ l') = l'.foldl (Place.after c) (life c l) := by
  rw [life, List.foldl_append]; rfl

theorem life_snoc (c : Conn) (l : List Effect) (e : Effect) :
    life c (l ++ [e]) = Place.after c (life c l) e := life_append _ _ _

/-- A connection to `a` was opened under the name `c`. -/
def OpenedTo (log : List Effect) (a : Addr) (c : Conn) : Prop := ∃ j, .opened j a c ∈ log

/-- The connections are where the history says they are: `hold i` is the connection of call `i`,
`pooled` are those in the pool and in commands, `next` was not opened yet, `addr i` is the address
of call `i`. -/
structure Places (log : List Effect) (hold : Nat → Option Conn) (pooled : List (Addr × Conn))
    (next : Nat) (addr : Nat → Option Addr) : Prop where
  held : ∀ c i, life c log = some (.call i) ↔ hold i = some c
  idle : ∀ c, life c log = some .pool ↔ c ∈ pooled.map Prod.snd
  unborn : ∀ c, life c log = some .unborn ↔ next ≤ c
  legal : ∀ c, life c log ≠ none
  nodup : (pooled.map Prod.snd).Nodup
  heldPeer : ∀ i c, hold i = some c → ∃ a, addr i = some a ∧ OpenedTo log a c
  pooledPeer : ∀ a c, (a, c) ∈ pooled → OpenedTo log a c
  openedPeer : ∀ i a c, .opened i a c ∈ log → addr i = some a
  tookPeer : ∀ i a c, .took i a c ∈ log → addr i = some a ∧ OpenedTo log a c
  ioPeer : ∀ i c, .io i c ∈ log → ∃ a, addr i = some a ∧ OpenedTo log a c
  returnedPeer : ∀ i a c, .returned i a c ∈ log → addr i = some a ∧ OpenedTo log a c

/-- Change a function at one place. -/
def upd {α : Type} (f : Nat → Option α) (i : Nat) (x : Option α) : Nat → Option α :=
  fun j => if j = i then x else f j

theorem OpenedTo.mono {log : List Effect} {a : Addr} {c : Conn} (h : OpenedTo log a c)
    (l : List Effect) : OpenedTo (log ++ l) a c := by
  obtain ⟨j, hj⟩ := h
  exact ⟨j, List.mem_append_left _ hj⟩

namespace Places
variable {log : List Effect} {hold : Nat → Option Conn} {pooled : List (Addr × Conn)} {next : Nat}
  {addr : Nat → Option Addr}

theorem initial : Places [] (fun _ => none) [] 0 (fun _ => none) := by
  constructor <;> simp [life]

/-- The call that holds a connection is unique. -/
theorem inj (h : Places log hold pooled next addr) {i j : Nat} {c : Conn} (h1 : hold i = some c)
    (h2 : hold j = some c) : i = j := by
  have e1 := (h.held c i).2 h1
  have e2 := (h.held c j).2 h2
  rw [e1] at e2
  cases e2
  rfl

/-- More calls. -/
theorem addCalls (h : Places log hold pooled next addr) {addr' : Nat → Option Addr}
    (ha : ∀ i a, addr i = some a → addr' i = some a) : Places log hold pooled next addr' where
  held := h.held
  idle := h.idle
  unborn := h.unborn
  legal := h.legal
  nodup := h.nodup
  heldPeer := fun i c hi => by
    obtain ⟨a, h1, h2⟩ := h.heldPeer i c hi
    exact ⟨a, ha _ _ h1, h2⟩
  pooledPeer := h.pooledPeer
  openedPeer := fun i a c hi => ha _ _ (h.openedPeer i a c hi)
  tookPeer := fun i a c hi => ⟨ha _ _ (h.tookPeer i a c hi).1, (h.tookPeer i a c hi).2⟩
  ioPeer := fun i c hi => by
    obtain ⟨a, h1, h2⟩ := h.ioPeer i c hi
    exact ⟨a, ha _ _ h1, h2⟩
  returnedPeer := fun i a c hi => ⟨ha _ _ (h.returnedPeer i a c hi).1, (h.returnedPeer i a c hi).2⟩

/-- The order in the pool does not matter. -/
theorem perm (h : Places log hold pooled next addr) {pooled' : List (Addr × Conn)}
    (hp : pooled.Perm pooled') : Places log hold pooled' next addr where
  held := h.held
  idle := fun c => (h.idle c).trans (hp.map _).mem_iff
  unborn := h.unborn
  legal := h.legal
  nodup := (hp.map _).nodup_iff.1 h.nodup
  heldPeer := h.heldPeer
  pooledPeer := fun a c hm => h.pooledPeer a c (hp.mem_iff.2 hm)
  openedPeer := h.openedPeer
  tookPeer := h.tookPeer
  ioPeer := h.ioPeer
  returnedPeer := h.returnedPeer

/-- Effects that do not concern connections. -/
theorem other (h : Places log hold pooled next addr) {e : Effect} (he : connOf e = none) :
    Places (log ++ [e]) hold pooled next addr := by
  have hl : ∀ c, life c (log ++ [e]) = life c log := by
    intro c
    rw [life_snoc]
    cases e <;> simp_all [connOf, Place.after]
  constructor
  · intro c i; rw [hl]; exact h.held c i
  · intro c; rw [hl]; exact h.idle c
  · intro c; rw [hl]; exact h.unborn c
  · intro c; rw [hl]; exact h.legal c
  · exact h.nodup
  · intro i c hi
    obtain ⟨a, h1, h2⟩ := h.heldPeer i c hi
    exact ⟨a, h1, h2.mono _⟩
  · exact fun a c hm => (h.pooledPeer a c hm).mono _
  · intro i a c hm
    rcases List.mem_append.1 hm with hm | hm
    · exact h.openedPeer i a c hm
    · rw [List.mem_singleton] at hm; subst hm; cases he
  · intro i a c hm
    rcases List.mem_append.1 hm with hm | hm
    · exact ⟨(h.tookPeer i a c hm).1, (h.tookPeer i a c hm).2.mono _⟩
    · rw [List.mem_singleton] at hm; subst hm; cases he
  · intro i c hm
    rcases List.mem_append.1 hm with hm | hm
    · obtain ⟨a, h1, h2⟩ := h.ioPeer i c hm
      exact ⟨a, h1, h2.mono _⟩
    · rw [List.mem_singleton] at hm; subst hm; cases he
  · intro i a c hm
    rcases List.mem_append.1 hm with hm | hm
    · exact ⟨(h.returnedPeer i a c hm).1, (h.returnedPeer i a c hm).2.mono _⟩
    · rw [List.mem_singleton] at hm; subst hm; cases he

/-- The effects on the record of addresses, for an effect which is correct by itself. -/
theorem peers (h : Places log hold pooled next addr) (e : Effect)
    (he : match e with
      | .opened i a _ => addr i = some a
      | .took i a c => addr i = some a ∧ OpenedTo log a c
      | .io i c => ∃ a, addr i = some a ∧ OpenedTo log a c
      | .returned i a c => addr i = some a ∧ OpenedTo log a c
      | _ => True) :
    (∀ i a c, .opened i a c ∈ log ++ [e] → addr i = some a) ∧
    (∀ i a c, .took i a c ∈ log ++ [e] → addr i = some a ∧ OpenedTo (log ++ [e]) a c) ∧
    (∀ i c, .io i c ∈ log ++ [e] → ∃ a, addr i = some a ∧ OpenedTo (log ++ [e]) a c) ∧
    (∀ i a c, .returned i a c ∈ log ++ [e] → addr i = some a ∧ OpenedTo (log ++ [e]) a c) := by
  refine ⟨?_, ?_, ?_, ?_⟩
  · intro i a c hm
    rcases List.mem_append.1 hm with hm | hm
    · exact h.openedPeer i a c hm
    · rw [List.mem_singleton] at hm; subst hm; exact he
  · intro i a c hm
    rcases List.mem_append.1 hm with hm | hm
    · exact ⟨(h.tookPeer i a c hm).1, (h.tookPeer i a c hm).2.mono _⟩
    · rw [List.mem_singleton] at hm; subst hm; exact ⟨he.1, he.2.mono _⟩
  · intro i c hm
    rcases List.mem_append.1 hm with hm | hm
    · obtain ⟨a, h1, h2⟩ := h.ioPeer i c hm
      exact ⟨a, h1, h2.mono _⟩
    · rw [List.mem_singleton] at hm; subst hm
      obtain ⟨a, h1, h2⟩ := he
      exact ⟨a, h1, h2.mono _⟩
  · intro i a c hm
    rcases List.mem_append.1 hm with hm | hm
    · exact ⟨(h.returnedPeer i a c hm).1, (h.returnedPeer i a c hm).2.mono _⟩
    · rw [List.mem_singleton] at hm; subst hm; exact ⟨he.1, he.2.mono _⟩

/-- A connection is opened for a call. -/
theorem opened (h : Places log hold pooled next addr) {i : Nat} {a : Addr} (hi : hold i = none)
    (ha : addr i = some a) :
    Places (log ++ [.opened i a next]) (upd hold i (some next)) pooled (next + 1) addr := by
  have hu := (h.unborn next).2 (Nat.le_refl _)
  have hl : ∀ c, life c (log ++ [.opened i a next]) =
      if next = c then some (.call i) else life c log := by
    intro c
    rw [life_snoc, Place.after]
    split
    · next hc => subst hc; rw [if_pos hu]
    · rfl
  obtain ⟨p1, p2, p3, p4⟩ := h.peers (.opened i a next) ha
  have ho : OpenedTo (log ++ [.opened i a next]) a next := ⟨i, by simp⟩
  refine ⟨?_, ?_, ?_, ?_, h.nodup, ?_, fun a c hm => (h.pooledPeer a c hm).mono _, p1, p2, p3, p4⟩
  · intro c j
    rw [hl]
    unfold upd
    by_cases hc : next = c
    · subst hc
      by_cases hj : j = i
      · subst hj; simp
      · rw [if_pos rfl, if_neg hj]
        constructor
        · intro he; cases he; exact absurd rfl hj
        · intro he
          rw [(h.held next j).2 he] at hu
          cases hu
    · rw [if_neg hc]
      by_cases hj : j = i
      · subst hj
        rw [if_pos rfl, h.held c j, hi]
        simp [hc]
      · rw [if_neg hj]; exact h.held c j
  · intro c
    rw [hl]
    by_cases hc : next = c
    · subst hc
      rw [if_pos rfl, ← h.idle, hu]
      simp
    · rw [if_neg hc]; exact h.idle c
  · intro c
    rw [hl]
    by_cases hc : next = c
    · subst hc; simp
    · rw [if_neg hc, h.unborn c]
      omega
  · intro c
    rw [hl]
    split
    · simp
    · exact h.legal c
  · intro j c hj
    unfold upd at hj
    by_cases hji : j = i
    · subst hji
      rw [if_pos rfl] at hj
      cases hj
      exact ⟨a, ha, ho⟩
    · rw [if_neg hji] at hj
      obtain ⟨b, h1, h2⟩ := h.heldPeer j c hj
      exact ⟨b, h1, h2.mono _⟩

/-- A call uses its connection. -/
theorem io (h : Places log hold pooled next addr) {i : Nat} {c : Conn} (hi : hold i = some c) :
    Places (log ++ [.io i c]) hold pooled next addr := by
  have hl : ∀ d, life d (log ++ [.io i c]) = life d log := by
    intro d
    rw [life_snoc, Place.after]
    split
    · next hc => subst hc; rw [if_pos ((h.held c i).2 hi)]
    · rfl
  obtain ⟨p1, p2, p3, p4⟩ := h.peers (.io i c) (h.heldPeer i c hi)
  refine ⟨fun d j => by rw [hl]; exact h.held d j, fun d => by rw [hl]; exact h.idle d,
    fun d => by rw [hl]; exact h.unborn d, fun d => by rw [hl]; exact h.legal d, h.nodup, ?_,
    fun a c hm => (h.pooledPeer a c hm).mono _, p1, p2, p3, p4⟩
  intro j d hj
  obtain ⟨b, h1, h2⟩ := h.heldPeer j d hj
  exact ⟨b, h1, h2.mono _⟩

/-- A call puts its connection back. -/
theorem returned (h : Places log hold pooled next addr) {i : Nat} {a : Addr} {c : Conn}
    (hi : hold i = some c) (ha : addr i = some a) :
    Places (log ++ [.returned i a c]) (upd hold i none) (pooled ++ [(a, c)]) next addr := by
  have hu := (h.held c i).2 hi
  have hl : ∀ d, life d (log ++ [.returned i a c]) =
      if c = d then some .pool else life d log := by
    intro d
    rw [life_snoc, Place.after]
    split
    · next hc => subst hc; rw [if_pos hu]
    · rfl
  have ho : OpenedTo log a c := by
    obtain ⟨b, h1, h2⟩ := h.heldPeer i c hi
    rw [ha] at h1
    cases h1
    exact h2
  have hn : c ∉ pooled.map Prod.snd := by
    rw [← h.idle, hu]; simp
  obtain ⟨p1, p2, p3, p4⟩ := h.peers (.returned i a c) ⟨ha, ho⟩
  refine ⟨?_, ?_, ?_, ?_, ?_, ?_, ?_, p1, p2, p3, p4⟩
  · intro d j
    rw [hl]
    unfold upd
    by_cases hc : c = d
    · subst hc
      rw [if_pos rfl]
      by_cases hj : j = i
      · subst hj; simp
      · rw [if_neg hj]
        constructor
        · intro he; cases he
        · intro he; exact absurd (h.inj he hi) hj
    · rw [if_neg hc]
      by_cases hj : j = i
      · subst hj
        rw [if_pos rfl, h.held d j, hi]
        simp [hc]
      · rw [if_neg hj]; exact h.held d j
  · intro d
    rw [hl, List.map_append, List.mem_append]
    by_cases hc : c = d
    · subst hc; simp
    · rw [if_neg hc, h.idle d]
      constructor
      · exact .inl
      · rintro (hm | hm)
        · exact hm
        · simp at hm; exact absurd hm.symm hc
  · intro d
    rw [hl, ← h.unborn d]
    by_cases hc : c = d
    · subst hc; rw [hu]; simp
    · rw [if_neg hc]
  · intro d
    rw [hl]
    split
    · simp
    · exact h.legal d
  · rw [List.map_append, List.nodup_append]
    refine ⟨h.nodup, by simp, ?_⟩
    intro x hx y hy hxy
    simp at hy
    subst hxy hy
    exact hn hx
  · intro j d hj
    unfold upd at hj
    by_cases hji : j = i
    · rw [if_pos hji] at hj; cases hj
    · rw [if_neg hji] at hj
      obtain ⟨b, h1, h2⟩ := h.heldPeer j d hj
      exact ⟨b, h1, h2.mono _⟩
  · intro b d hm
    rcases List.mem_append.1 hm with hm | hm
    · exact (h.pooledPeer b d hm).mono _
    · rw [List.mem_singleton] at hm
      cases hm
      exact ho.mono _

/-- A call is given a connection of the pool. -/
theorem took (h : Places log hold ((a, c) :: pooled) next addr) {i : Nat} (hi : hold i = none)
    (ha : addr i = some a) :
    Places (log ++ [.took i a c]) (upd hold i (some c)) pooled next addr := by
  have hu := (h.idle c).2 (by simp)
  have hl : ∀ d, life d (log ++ [.took i a c]) =
      if c = d then some (.call i) else life d log := by
    intro d
    rw [life_snoc, Place.after]
    split
    · next hc => subst hc; rw [if_pos hu]
    · rfl
  have ho : OpenedTo log a c := h.pooledPeer a c (by simp)
  have hn := List.nodup_cons.1 h.nodup
  obtain ⟨p1, p2, p3, p4⟩ := h.peers (.took i a c) ⟨ha, ho⟩
  refine ⟨?_, ?_, ?_, ?_, hn.2, ?_, ?_, p1, p2, p3, p4⟩
  · intro d j
    rw [hl]
    unfold upd
    by_cases hc : c = d
    · subst hc
      rw [if_pos rfl]
      by_cases hj : j = i
      · subst hj; simp
      · rw [if_neg hj]
        constructor
        · intro he; cases he; exact absurd rfl hj
        · intro he
          rw [(h.held c j).2 he] at hu
          cases hu
    · rw [if_neg hc]
      by_cases hj : j = i
      · subst hj
        rw [if_pos rfl, h.held d j, hi]
        simp [hc]
      · rw [if_neg hj]; exact h.held d j
  · intro d
    rw [hl]
    by_cases hc : c = d
    · subst hc
      rw [if_pos rfl]
      constructor
      · intro he; cases he
      · intro he; exact absurd he hn.1
    · rw [if_neg hc, h.idle d]
      simp [Ne.symm hc]
  · intro d
    rw [hl, ← h.unborn d]
    by_cases hc : c = d
    · subst hc; rw [hu]; simp
    · rw [if_neg hc]
  · intro d
    rw [hl]
    split
    · simp
    · exact h.legal d
  · intro j d hj
    unfold upd at hj
    by_cases hji : j = i
    · subst hji
      rw [if_pos rfl] at hj
      cases hj
      exact ⟨a, ha, ho.mono _⟩
    · rw [if_neg hji] at hj
      obtain ⟨b, h1, h2⟩ := h.heldPeer j d hj
      exact ⟨b, h1, h2.mono _⟩
  · exact fun b d hm => (h.pooledPeer b d (List.mem_cons_of_mem _ hm)).mono _

/-- The connection of a call is closed. -/
theorem closedHeld (h : Places log hold pooled next addr) {i : Nat} {c : Conn}
    (hi : hold i = some c) :
    Places (log ++ [.closed c]) (upd hold i none) pooled next addr := by
  have hu := (h.held c i).2 hi
  have hl : ∀ d, life d (log ++ [.closed c]) =
      if c = d then some .closed else life d log := by
    intro d
    rw [life_snoc]
    by_cases hc : c = d
    · subst hc; simp [Place.after, hu]
    · simp [Place.after, hc]
  obtain ⟨p1, p2, p3, p4⟩ := h.peers (.closed c) trivial
  refine ⟨?_, ?_, ?_, ?_, h.nodup, ?_, fun a c hm => (h.pooledPeer a c hm).mono _, p1, p2, p3, p4⟩
  · intro d j
    rw [hl]
    unfold upd
    by_cases hc : c = d
    · subst hc
      rw [if_pos rfl]
      by_cases hj : j = i
      · subst hj; simp
      · rw [if_neg hj]
        constructor
        · intro he; cases he
        · intro he; exact absurd (h.inj he hi) hj
    · rw [if_neg hc]
      by_cases hj : j = i
      · subst hj
        rw [if_pos rfl, h.held d j, hi]
        simp [hc]
      · rw [if_neg hj]; exact h.held d j
  · intro d
    rw [hl, ← h.idle d]
    by_cases hc : c = d
    · subst hc; rw [hu]; simp
    · rw [if_neg hc]
  · intro d
    rw [hl, ← h.unborn d]
    by_cases hc : c = d
    · subst hc; rw [hu]; simp
    · rw [if_neg hc]
  · intro d
    rw [hl]
    split
    · simp
    · exact h.legal d
  · intro j d hj
    unfold upd at hj
    by_cases hji : j = i
    · rw [if_pos hji] at hj; cases hj
    · rw [if_neg hji] at hj
      obtain ⟨b, h1, h2⟩ := h.heldPeer j d hj
      exact ⟨b, h1, h2.mono _⟩

/-- A connection of the pool is closed. -/
theorem closedIdle (h : Places log hold ((a, c) :: pooled) next addr) :
    Places (log ++ [.closed c]) hold pooled next addr := by
  have hu := (h.idle c).2 (by simp)
  have hl : ∀ d, life d (log ++ [.closed c]) =
      if c = d then some .closed else life d log := by
    intro d
    rw [life_snoc]
    by_cases hc : c = d
    · subst hc; simp [Place.after, hu]
    · simp [Place.after, hc]
  have hn := List.nodup_cons.1 h.nodup
  obtain ⟨p1, p2, p3, p4⟩ := h.peers (.closed c) trivial
  refine ⟨?_, ?_, ?_, ?_, hn.2, ?_,
    fun b d hm => (h.pooledPeer b d (List.mem_cons_of_mem _ hm)).mono _, p1, p2, p3, p4⟩
  · intro d j
    rw [hl, ← h.held d j]
    by_cases hc : c = d
    · subst hc; rw [hu]; simp
    · rw [if_neg hc]
  · intro d
    rw [hl]
    by_cases hc : c = d
    · subst hc
      rw [if_pos rfl]
      constructor
      · intro he; cases he
      · intro he; exact absurd he hn.1
    · rw [if_neg hc, h.idle d]
      simp [Ne.symm hc]
  · intro d
    rw [hl, ← h.unborn d]
    by_cases hc : c = d
    · subst hc; rw [hu]; simp
    · rw [if_neg hc]
  · intro d
    rw [hl]
    split
    · simp
    · exact h.legal d
  · intro j d hj
    obtain ⟨b, h1, h2⟩ := h.heldPeer j d hj
    exact ⟨b, h1, h2.mono _⟩

/-- Several connections of the pool are closed. -/
theorem closedIdles {xs : List (Addr × Conn)} :
    ∀ {log : List Effect}, Places log hold (xs ++ pooled) next addr →
    Places (log ++ (xs.map Prod.snd).map .closed) hold pooled next addr := by
  induction xs with
  | nil => intro log h; simpa using h
  | cons x xs ih =>
    intro log h
    have := ih h.closedIdle
    simpa using this

end Places

end Htrpc
