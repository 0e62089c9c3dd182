import Verif.Spec.Pool

namespace Htrpc
open Spec

/-! ### Ordered lists -/

namespace BTreeMap
variable {κ ν : Type} {lt : κ → κ → Bool}

/-- Strict orders. -/
structure Strict (lt : κ → κ → Bool) : Prop where
  irrefl : ∀ a, lt a a = false
  trans : ∀ {a b c}, lt a b = true → lt b c = true → lt a c = true

/-- The keys are in order. -/
abbrev Sorted (lt : κ → κ → Bool) (m : BTreeMap κ ν) : Prop :=
  m.Pairwise fun a b => lt a.1 b.1 = true

theorem insert_perm (k : κ) (v : ν) : ∀ (m : BTreeMap κ ν),
    (∀ e ∈ m, lt k e.1 = true ∨ lt e.1 k = true) → (insert lt k v m).Perm ((k, v) :: m)
  | [], _ => List.Perm.refl _
  | (k', v') :: m, h => by
    rw [insert]
    split
    · exact List.Perm.refl _
    · rename_i h1
      split
      · exact ((insert_perm k v m fun e he => h e (List.mem_cons_of_mem _ he)).cons _).trans
          (List.Perm.swap _ _ _)
      · rename_i h2
        rcases h (k', v') List.mem_cons_self with h | h
        · exact absurd h h1
        · exact absurd h h2

theorem insert_sorted (hs : Strict lt) (k : κ) (v : ν) : ∀ (m : BTreeMap κ ν), Sorted lt m →
    (∀ e ∈ m, lt k e.1 = true ∨ lt e.1 k = true) → Sorted lt (insert lt k v m)
  | [], _, _ => by simp [insert, Sorted]
  | (k', v') :: m, h, hk => by
    have h' := List.pairwise_cons.1 h
    rw [insert]
    split
    · rename_i h1
      refine List.pairwise_cons.2 ⟨?_, h⟩
      intro e he
      rcases List.mem_cons.1 he with rfl | he
      · exact h1
      · exact hs.trans h1 (h'.1 e he)
    · rename_i h1
      have hk' : ∀ e ∈ m, lt k e.1 = true ∨ lt e.1 k = true :=
        fun e he => hk e (List.mem_cons_of_mem _ he)
      split
      · rename_i h2
        refine List.pairwise_cons.2 ⟨?_, insert_sorted hs k v m h'.2 hk'⟩
        intro e he
        rcases List.mem_cons.1 ((insert_perm k v m hk').mem_iff.1 he) with rfl | he
        · exact h2
        · exact h'.1 e he
      · rename_i h2
        rcases hk (k', v') List.mem_cons_self with h | h
        · exact absurd h h1
        · exact absurd h h2

theorem remove_mem (hs : Strict lt) (k : κ) (v : ν) : ∀ (m : BTreeMap κ ν), Sorted lt m →
    (k, v) ∈ m → ∃ m', remove lt k m = (some v, m') ∧ m.Perm ((k, v) :: m') ∧ Sorted lt m'
  | [], _, h => by cases h
  | (k', v') :: m, h, hm => by
    have h' := List.pairwise_cons.1 h
    rw [remove]
    rcases List.mem_cons.1 hm with he | hm
    · cases he
      rw [hs.irrefl]
      exact ⟨m, rfl, List.Perm.refl _, h'.2⟩
    · have h1 : lt k' k = true := h'.1 _ hm
      obtain ⟨m', e, hp, ho⟩ := remove_mem hs k v m h'.2 hm
      rw [if_pos h1, e]
      refine ⟨(k', v') :: m', rfl, ((hp.cons _).trans (List.Perm.swap _ _ _)), ?_⟩
      refine List.pairwise_cons.2 ⟨?_, ho⟩
      intro x hx
      exact h'.1 x (hp.mem_iff.2 (List.mem_cons_of_mem _ hx))

/-- The first key that is not less, in an ordered list. -/
theorem firstFrom_some (k x : κ) (m : BTreeMap κ ν) (h : Sorted lt m)
    (hf : firstFrom lt k m = some x) :
    (∃ v, (x, v) ∈ m) ∧ lt x k = false ∧
      ∀ e ∈ m, lt e.1 k = false → e.1 = x ∨ lt x e.1 = true := by
  rw [firstFrom, Option.map_eq_some_iff] at hf
  obtain ⟨⟨y, v⟩, hf, rfl⟩ := hf
  induction m with
  | nil => cases hf
  | cons e m ih =>
    have h' := List.pairwise_cons.1 h
    rw [List.find?_cons] at hf
    split at hf
    · rename_i h1
      cases hf
      refine ⟨⟨v, List.mem_cons_self⟩, by simpa using h1, ?_⟩
      intro e he _
      rcases List.mem_cons.1 he with rfl | he
      · exact .inl rfl
      · exact .inr (h'.1 e he)
    · rename_i h1
      obtain ⟨⟨w, hw⟩, h2, h3⟩ := ih h'.2 hf
      refine ⟨⟨w, List.mem_cons_of_mem _ hw⟩, h2, ?_⟩
      intro e' he hk
      rcases List.mem_cons.1 he with rfl | he
      · simp [hk] at h1
      · exact h3 e' he hk

theorem firstFrom_none (k : κ) (m : BTreeMap κ ν) (hf : firstFrom lt k m = none) :
    ∀ e ∈ m, lt e.1 k = true := by
  rw [firstFrom, Option.map_eq_none_iff, List.find?_eq_none] at hf
  intro e he
  simpa using hf e he

end BTreeMap

theorem natLt_strict : BTreeMap.Strict natLt :=
  ⟨fun a => by simp [natLt], fun h1 h2 => by simp [natLt] at *; omega⟩

theorem connId_strict : BTreeMap.Strict ConnId.lt :=
  ⟨fun a => by simp [ConnId.lt], fun h1 h2 => by simp [ConnId.lt] at *; omega⟩

theorem natLt_insert_last (k : Nat) {ν : Type} (v : ν) : ∀ (m : BTreeMap Nat ν),
    (∀ e ∈ m, e.1 < k) → BTreeMap.insert natLt k v m = m ++ [(k, v)]
  | [], _ => rfl
  | (k', v') :: m, h => by
    have h1 : k' < k := h _ List.mem_cons_self
    rw [BTreeMap.insert, if_neg (by simp [natLt]; omega), if_pos (by simp [natLt]; omega),
      natLt_insert_last k v m fun e he => h e (List.mem_cons_of_mem _ he)]
    rfl

namespace Pool

/-- An idle connection with the number of its release. -/
abbrev Entry := Nat × Addr × Conn

/-- The pool holds these entries. -/
structure Holds (p : Pool) (es : List Entry) : Prop where
  order : es.Pairwise fun a b => a.1 < b.1
  bound : ∀ e ∈ es, e.1 < p.seq
  lru : p.lru = es.map fun e => (e.1, e.2.1)
  perm : p.connections.Perm (es.map fun e => (⟨e.2.1, e.1⟩, e.2.2))
  sorted : BTreeMap.Sorted ConnId.lt p.connections

/-- Take the first entry of the same host. -/
def splitHost (a : Addr) : List Entry → Option (List Entry × Entry × List Entry)
  | [] => none
  | e :: es =>
    if SameHost e.2.1 a then some ([], e, es)
    else (splitHost a es).map fun r => (e :: r.1, r.2)

theorem splitHost_some {a : Addr} {es x z : List Entry} {e : Entry}
    (h : splitHost a es = some (x, e, z)) :
    es = x ++ e :: z ∧ SameHost e.2.1 a ∧ ∀ y ∈ x, ¬ SameHost y.2.1 a := by
  induction es generalizing x with
  | nil => cases h
  | cons y es ih =>
    rw [splitHost] at h
    split at h
    · rename_i hy
      cases h
      exact ⟨rfl, hy, by simp⟩
    · rename_i hy
      rw [Option.map_eq_some_iff] at h
      obtain ⟨⟨x', r⟩, h1, h2⟩ := h
      cases h2
      obtain ⟨rfl, h3, h4⟩ := ih h1
      refine ⟨rfl, h3, ?_⟩
      intro w hw
      rcases List.mem_cons.1 hw with rfl | hw
      · exact hy
      · exact h4 w hw

theorem splitHost_none {a : Addr} {es : List Entry} (h : splitHost a es = none) :
    ∀ e ∈ es, ¬ SameHost e.2.1 a := by
  induction es with
  | nil => simp
  | cons y es ih =>
    rw [splitHost] at h
    split at h
    · cases h
    · rename_i hy
      rw [Option.map_eq_none_iff] at h
      intro e he
      rcases List.mem_cons.1 he with rfl | he
      · exact hy
      · exact ih h e he

/-- The idle connections of a list of entries. -/
def idleOf (es : List Entry) : List (Addr × Conn) := es.map Prod.snd

theorem takeIdle_split (a : Addr) (es : List Entry) :
    takeIdle a (idleOf es) = match splitHost a es with
      | none => none
      | some (x, e, z) => if e.2.1 = a then some (e.2.2, idleOf (x ++ z)) else none := by
  induction es with
  | nil => rfl
  | cons y es ih =>
    obtain ⟨q, b, c⟩ := y
    rw [idleOf, List.map_cons, takeIdle, splitHost]
    by_cases h : SameHost b a
    · rw [if_pos h, if_pos h]
      rfl
    · rw [if_neg h, if_neg h]
      rw [idleOf] at ih
      rw [ih]
      cases splitHost a es with
      | none => rfl
      | some r =>
        obtain ⟨x, e, z⟩ := r
        simp only [Option.map_some]
        split <;> simp [idleOf]

theorem Holds.first {p : Pool} {es : List Entry} (h : p.Holds es) (a : Addr) :
    ((BTreeMap.firstFrom ConnId.lt ⟨a, 0⟩ p.connections).bind fun id =>
        if id.addr = a then some id else none) =
      match splitHost a es with
      | none => none
      | some (_, e, _) => if e.2.1 = a then some ⟨e.2.1, e.1⟩ else none := by
  have mem {k : ConnId} {c : Conn} : (k, c) ∈ p.connections ↔ (k.seq, k.addr, c) ∈ es := by
    rw [h.perm.mem_iff, List.mem_map]
    constructor
    · rintro ⟨e, he, hk⟩
      cases hk
      exact he
    · intro he
      exact ⟨_, he, rfl⟩
  cases hs : splitHost a es with
  | none =>
    have hn := splitHost_none hs
    cases hf : BTreeMap.firstFrom ConnId.lt ⟨a, 0⟩ p.connections with
    | none => rfl
    | some x =>
      obtain ⟨⟨c, hx⟩, -, -⟩ := BTreeMap.firstFrom_some _ _ _ h.sorted hf
      have := hn _ (mem.1 hx)
      simp only [Option.bind_some]
      rw [if_neg]
      rintro rfl
      exact this ⟨rfl, rfl⟩
  | some r =>
    obtain ⟨x, ⟨q, b, c⟩, z⟩ := r
    obtain ⟨he, hb, hx⟩ := splitHost_some hs
    have hmem : (⟨b, q⟩, c) ∈ p.connections := mem.2 (by rw [he]; simp)
    obtain ⟨hb1, hb2⟩ := hb
    simp only at hb1 hb2
    have hge : ConnId.lt ⟨b, q⟩ ⟨a, 0⟩ = false := by simp [ConnId.lt]; omega
    cases hf : BTreeMap.firstFrom ConnId.lt ⟨a, 0⟩ p.connections with
    | none =>
      have := BTreeMap.firstFrom_none _ _ hf _ hmem
      rw [hge] at this
      cases this
    | some y =>
      obtain ⟨⟨d, hy⟩, h1, h2⟩ := BTreeMap.firstFrom_some _ _ _ h.sorted hf
      have hyb : y = ⟨b, q⟩ := by
        rcases h2 _ hmem hge with h3 | h3
        · exact h3.symm
        · exfalso
          -- y is of the same host, hence not before (q, b, c)
          have hy' := mem.1 hy
          have hhost : SameHost y.addr a := by
            simp [ConnId.lt] at h1 h3
            constructor <;> omega
          have hlt : y.seq < q := by
            simp [ConnId.lt] at h1 h3
            obtain ⟨h4, h5⟩ := hhost
            omega
          rw [he] at hy'
          rcases List.mem_append.1 hy' with hm | hm
          · exact hx _ hm hhost
          · rcases List.mem_cons.1 hm with hm | hm
            · cases hm; omega
            · have ho := h.order
              rw [he] at ho
              have := (List.pairwise_cons.1 (List.pairwise_append.1 ho).2.1).1 _ hm
              simp at this
              omega
      subst hyb
      rfl

theorem perm_middle {α : Type} (x : List α) (e : α) (z : List α) :
    (x ++ e :: z).Perm (e :: (x ++ z)) := List.perm_middle

/-- Acquisition. -/
theorem Holds.acquire {p : Pool} {es : List Entry} (h : p.Holds es) (a : Addr) :
    ∃ p' es', p'.Holds es' ∧ p'.size = p.size ∧ p'.seq = p.seq ∧ p'.blacklist = p.blacklist ∧
      p'.suspended = p.suspended ∧
      match takeIdle a (idleOf es) with
      | some (c, idle) => p.acquire a = .ok (.ready c, p') ∧ idleOf es' = idle
      | none => p.acquire a = .ok (.connecting a, p') ∧ es' = es := by
  rw [Pool.acquire, h.first, takeIdle_split]
  cases hs : splitHost a es with
  | none => exact ⟨p, es, h, rfl, rfl, rfl, rfl, rfl, rfl⟩
  | some r =>
    obtain ⟨x, ⟨q, b, c⟩, z⟩ := r
    simp only
    by_cases hb : b = a
    · rw [if_pos hb]
      simp only
      obtain ⟨he, -, -⟩ := splitHost_some hs
      have hm : (⟨b, q⟩, c) ∈ p.connections := by
        rw [h.perm.mem_iff, List.mem_map]
        exact ⟨(q, b, c), by rw [he]; simp, rfl⟩
      obtain ⟨m', e1, hp, ho⟩ := BTreeMap.remove_mem connId_strict _ _ _ h.sorted hm
      have hl : (q, b) ∈ p.lru := by
        rw [h.lru, List.mem_map]
        exact ⟨(q, b, c), by rw [he]; simp, rfl⟩
      have hlo : BTreeMap.Sorted natLt p.lru := by
        rw [h.lru, BTreeMap.Sorted, List.pairwise_map]
        exact h.order.imp fun hab => by simpa [natLt] using hab
      obtain ⟨l', e2, hp2, ho2⟩ := BTreeMap.remove_mem natLt_strict _ _ _ hlo hl
      have hsub : (x ++ z).Sublist es := by
        rw [he]; exact List.Sublist.append (List.Sublist.refl _) (List.sublist_cons_self _ _)
      refine ⟨{ p with lru := l', connections := m' }, x ++ z, ⟨?_, ?_, ?_, ?_, ho⟩, rfl, rfl, rfl,
        rfl, ?_, rfl⟩
      · exact h.order.sublist hsub
      · exact fun e hx => h.bound e (hsub.subset hx)
      · have h3 : l'.Perm ((x ++ z).map fun e => (e.1, e.2.1)) := by
          rw [h.lru, he] at hp2
          have := hp2.symm.trans ((perm_middle x (q, b, c) z).map _)
          rw [List.map_cons] at this
          exact this.cons_inv
        apply List.Perm.eq_of_pairwise (le := fun a b : Nat × Addr => natLt a.1 b.1 = true)
        · intro a b _ _ h1 h2
          simp [natLt] at h1 h2
          omega
        · exact ho2
        · rw [List.pairwise_map]
          exact (h.order.sublist hsub).imp fun hab => by simpa [natLt] using hab
        · exact h3
      · have := hp.symm.trans h.perm
        rw [he] at this
        have := this.trans ((perm_middle x (q, b, c) z).map _)
        rw [List.map_cons] at this
        exact this.cons_inv
      · rw [if_pos hb]
        simp only [e1, e2]
    · simp only [if_neg hb]
      exact ⟨p, es, h, rfl, rfl, rfl, rfl, rfl, rfl⟩

/-- Eviction. -/
theorem dropExceeded_ok (size : Nat) : ∀ (es : List Entry) (cs : BTreeMap ConnId Conn),
    es.Pairwise (fun a b => a.1 < b.1) →
    cs.Perm (es.map fun e => (⟨e.2.1, e.1⟩, e.2.2)) → BTreeMap.Sorted ConnId.lt cs →
    ∃ cs', dropExceeded size cs (es.map fun e => (e.1, e.2.1)) =
        .ok ((es.take (es.length - size)).map (fun e => e.2.2), cs',
          (es.drop (es.length - size)).map fun e => (e.1, e.2.1)) ∧
      cs'.Perm ((es.drop (es.length - size)).map fun e => (⟨e.2.1, e.1⟩, e.2.2)) ∧
      BTreeMap.Sorted ConnId.lt cs'
  | [], cs, _, hp, ho => by
    have hl := hp.length_eq
    refine ⟨cs, ?_, by simpa using hp, ho⟩
    rw [dropExceeded.eq_def, if_neg]
    · simp
    · rw [List.map_nil, List.length_nil] at hl; omega
  | (q, b, c) :: es, cs, hes, hp, ho => by
    have hl := hp.length_eq
    rw [List.length_map, List.length_cons] at hl
    by_cases hlen : cs.length > size
    · have hm : (⟨b, q⟩, c) ∈ cs := hp.mem_iff.2 (by simp)
      obtain ⟨m', e1, hp1, ho1⟩ := BTreeMap.remove_mem connId_strict _ _ _ ho hm
      have hp2 : m'.Perm (es.map fun e => (⟨e.2.1, e.1⟩, e.2.2)) := by
        have := hp1.symm.trans hp
        rw [List.map_cons] at this
        exact this.cons_inv
      obtain ⟨cs', e2, h1, h2⟩ := dropExceeded_ok size es m' (List.pairwise_cons.1 hes).2 hp2 ho1
      refine ⟨cs', ?_, ?_, h2⟩
      · rw [dropExceeded.eq_def, if_pos hlen]
        simp only [List.map_cons]
        have e3 : (BTreeMap.remove natLt q ((q, b) :: es.map fun e => (e.1, e.2.1))).2 =
            es.map fun e => (e.1, e.2.1) := by
          simp [BTreeMap.remove, natLt]
        rw [e1, e3]
        simp only
        rw [e2]
        have : (((q, b, c) :: es).length - size) = es.length - size + 1 := by
          rw [List.length_cons]; omega
        rw [this]
        rfl
      · have : (((q, b, c) :: es).length - size) = es.length - size + 1 := by
          rw [List.length_cons]; omega
        rw [this]
        exact h1
    · have : (((q, b, c) :: es).length - size) = 0 := by rw [List.length_cons]; omega
      refine ⟨cs, ?_, by rw [this]; exact hp, ho⟩
      rw [dropExceeded.eq_def, if_neg hlen, this]
      rfl

/-- Release. -/
theorem Holds.release {p : Pool} {es : List Entry} (h : p.Holds es) (a : Addr) (c : Conn)
    (hseq : p.seq + 1 < 2 ^ 64) :
    ∃ p' es', p'.Holds es' ∧ p'.size = p.size ∧ p'.seq = p.seq + 1 ∧
      p'.blacklist = p.blacklist ∧ p'.suspended = p.suspended ∧
      p.release a c = .ok (((idleOf es ++ [(a, c)]).take
        ((idleOf es ++ [(a, c)]).length - p.size)).map Prod.snd, p') ∧
      idleOf es' = (idleOf es ++ [(a, c)]).drop ((idleOf es ++ [(a, c)]).length - p.size) := by
  have hne : ∀ e ∈ p.connections, ConnId.lt ⟨a, p.seq⟩ e.1 = true ∨
      ConnId.lt e.1 ⟨a, p.seq⟩ = true := by
    intro e he
    obtain ⟨x, hx, rfl⟩ := List.mem_map.1 (h.perm.mem_iff.1 he)
    have := h.bound x hx
    simp [ConnId.lt]
    omega
  have hlast : BTreeMap.insert natLt p.seq a p.lru =
      (es ++ [(p.seq, a, c)]).map fun e => (e.1, e.2.1) := by
    rw [natLt_insert_last, h.lru, List.map_append]
    · rfl
    · rw [h.lru]
      intro e he
      obtain ⟨x, hx, rfl⟩ := List.mem_map.1 he
      exact h.bound x hx
  have ho : (es ++ [(p.seq, a, c)]).Pairwise (fun a b => a.1 < b.1) := by
    rw [List.pairwise_append]
    refine ⟨h.order, List.pairwise_singleton _ _, ?_⟩
    intro x hx y hy
    rw [List.mem_singleton.1 hy]
    exact h.bound x hx
  have hperm : (BTreeMap.insert ConnId.lt ⟨a, p.seq⟩ c p.connections).Perm
      ((es ++ [(p.seq, a, c)]).map fun e => (⟨e.2.1, e.1⟩, e.2.2)) := by
    refine (BTreeMap.insert_perm _ _ _ hne).trans ?_
    rw [List.map_append]
    exact (h.perm.cons _).trans (List.perm_append_singleton _ _).symm
  obtain ⟨cs', e1, h1, h2⟩ := dropExceeded_ok p.size (es ++ [(p.seq, a, c)]) _ ho hperm
    (BTreeMap.insert_sorted connId_strict _ _ _ h.sorted hne)
  have hid : idleOf (es ++ [(p.seq, a, c)]) = idleOf es ++ [(a, c)] := by simp [idleOf]
  have hlen : (idleOf es ++ [(a, c)]).length = (es ++ [(p.seq, a, c)]).length := by
    simp [idleOf]
  refine ⟨⟨p.size, cs', _, p.seq + 1, p.blacklist, p.suspended⟩, _, ⟨?_, ?_, rfl, h1, h2⟩, rfl,
    rfl, rfl, rfl, ?_, ?_⟩
  · exact ho.sublist (List.drop_sublist _ _)
  · intro e he
    have := (List.drop_sublist _ _).subset he
    rcases List.mem_append.1 this with hx | hx
    · have := h.bound e hx
      show e.1 < p.seq + 1
      omega
    · rw [List.mem_singleton.1 hx]
      exact Nat.lt_succ_self _
  · rw [Pool.release, if_pos hseq]
    simp only
    rw [hlast, e1]
    simp only [Res.bind_ok]
    rw [hlen, ← hid]
    simp [idleOf, List.map_take]
    rfl
  · rw [hlen, ← hid]
    simp [idleOf, List.map_drop]

end Pool
end Htrpc
