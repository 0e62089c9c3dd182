/-
Routing: C01 to C05.
-/
import Verif.Lemmas.Dispatch

namespace Htrpc
open Spec
variable {H : Type}

theorem registerAll_append (rs rs' : List (Reg H)) (t : Trie H) :
    (registerAll (rs ++ rs') t).1 = (registerAll rs' (registerAll rs t).1).1 ∧
    (registerAll (rs ++ rs') t).2 = (registerAll rs t).2 ++ (registerAll rs' (registerAll rs t).1).2 := by
  induction rs generalizing t with
  | nil => simp [registerAll]
  | cons r rs ih => simp [registerAll, ih]

theorem registerAll_length (rs : List (Reg H)) (t : Trie H) :
    (registerAll rs t).2.length = rs.length := by
  induction rs generalizing t with
  | nil => rfl
  | cons r rs ih => simp [registerAll, ih]

/-- C02. The trie answers every request as the dispatch rule says. -/
theorem C02_exact_dispatch (rs : List (Reg H)) (m : Method) (path : List Str) :
    (registerAll rs Trie.empty).1.route m path = dispatch m path (accepted rs) :=
  (Rep.empty.registerAll rs).route m path

/-- C01. A handler is called only for a registration of it with the method and a matching entry
point. -/
theorem C01_routing_sound (rs : List (Reg H)) (m : Method) (path : List Str) (h : H)
    (hr : (registerAll rs Trie.empty).1.route m path = .ok h) :
    ∃ r ∈ rs, r.handler = h ∧ r.method = m ∧ Matches r.entry path := by
  rw [C02_exact_dispatch] at hr
  obtain ⟨r, h1, h2⟩ := dispatch_sound hr
  exact ⟨r, mem_of_mem_accepted h1, h2⟩

/-- C02, read off: which handler is called, as a condition on the table alone. -/
theorem C02_dispatch_iff (rs : List (Reg H)) (m : Method) (path : List Str) (h : H) :
    (registerAll rs Trie.empty).1.route m path = .ok h ↔
      ∃ r ∈ accepted rs, r.handler = h ∧ r.method = m ∧ Matches r.entry path ∧
        ¬ Shadowed rs r.entry path := by
  rw [C02_exact_dispatch, dispatch_ok_iff (accepted_conflictFree rs)]
  simp only [shadowed_accepted]

/-- C04. The registration after `rs` fails exactly when its (method, entry point) pair is already
taken. -/
theorem C04_register_fails_iff (rs post : List (Reg H)) (r : Reg H) :
    (registerAll (rs ++ r :: post) Trie.empty).2[rs.length]? = some false ↔
      ∃ r' ∈ rs, r'.method = r.method ∧ r'.entry = r.entry := by
  have hRep := Rep.empty.registerAll (H := H) rs
  rw [(registerAll_append rs (r :: post) Trie.empty).2,
    List.getElem?_append_right (by simp [registerAll_length])]
  simp only [registerAll_length, Nat.sub_self, registerAll, List.getElem?_cons_zero,
    Option.some.injEq, Trie.insert_snd, hRep.values]
  rw [← Bool.not_eq_true, Option.isNone_iff_eq_none, handlerFor_isNone, not_not]
  constructor
  · rintro ⟨r', hr', hc⟩
    exact ⟨r', mem_of_mem_accepted hr', hc⟩
  · rintro ⟨r', hr', hc⟩
    obtain ⟨r'', hr'', hc'⟩ := accepted_covers hr'
    exact ⟨r'', hr'', hc'.1.trans hc.1, hc'.2.trans hc.2⟩

/-- Every registration attempt has a definite outcome. -/
theorem register_flag_some (rs post : List (Reg H)) (r : Reg H) :
    ∃ b, (registerAll (rs ++ r :: post) Trie.empty).2[rs.length]? = some b := by
  have : rs.length < (registerAll (rs ++ r :: post) Trie.empty).2.length := by
    simp [registerAll_length]
  exact ⟨_, List.getElem?_eq_getElem this⟩

/-- C04. After a failed registration every request is answered as if it had never been attempted,
whatever is registered later. -/
theorem C04_failed_register_no_effect (rs post : List (Reg H)) (r : Reg H)
    (hf : (registerAll (rs ++ r :: post) Trie.empty).2[rs.length]? = some false)
    (m : Method) (path : List Str) :
    (registerAll (rs ++ r :: post) Trie.empty).1.route m path =
      (registerAll (rs ++ post) Trie.empty).1.route m path := by
  obtain ⟨r', hr', hc⟩ := (C04_register_fails_iff rs post r).1 hf
  obtain ⟨r'', hr'', hc'⟩ := accepted_covers hr'
  rw [C02_exact_dispatch, C02_exact_dispatch]
  have : accept (accepted rs) r = accepted rs := by
    rw [accept, if_pos ⟨r'', hr'', hc'.1.trans hc.1, hc'.2.trans hc.2⟩]
  have h2 : accepted (rs ++ r :: post) = accepted (rs ++ post) := by
    simp only [accepted, List.foldl_append, List.foldl_cons] at this ⊢
    rw [this]
  rw [h2]

theorem all_registered_iff (rs : List (Reg H)) :
    (∀ b ∈ (registerAll rs Trie.empty).2, b = true) ↔ ConflictFree rs := by
  constructor
  · intro h
    unfold ConflictFree
    rw [List.pairwise_iff_getElem]
    intro i j hi hj hij hc
    have hsplit : rs = rs.take j ++ rs[j] :: rs.drop (j + 1) := by simp
    have hlen : (rs.take j).length = j := by simp; omega
    have hfail : (registerAll (rs.take j ++ rs[j] :: rs.drop (j + 1)) Trie.empty).2[(rs.take j).length]?
        = some false := by
      rw [C04_register_fails_iff]
      refine ⟨rs[i], ?_, hc⟩
      rw [List.mem_take_iff_getElem]
      exact ⟨i, by omega, rfl⟩
    rw [← hsplit] at hfail
    cases h _ (List.mem_of_getElem? hfail)
  · intro h b hb
    obtain ⟨j, hj, hb⟩ := List.mem_iff_getElem.1 hb
    have hj' : j < rs.length := by rw [registerAll_length] at hj; exact hj
    have hsplit : rs = rs.take j ++ rs[j] :: rs.drop (j + 1) := by simp
    have hlen : (rs.take j).length = j := by simp; omega
    cases b with
    | true => rfl
    | false =>
      exfalso
      have hfail : (registerAll (rs.take j ++ rs[j] :: rs.drop (j + 1)) Trie.empty).2[(rs.take j).length]?
          = some false := by
        rw [← hsplit, hlen, List.getElem?_eq_getElem hj, hb]
      rw [C04_register_fails_iff] at hfail
      obtain ⟨r', hr', hc⟩ := hfail
      obtain ⟨i, hi, rfl⟩ := List.mem_take_iff_getElem.1 hr'
      exact (List.pairwise_iff_getElem.1 h) i j (by omega) hj' (by omega) hc

/-- C03. If all registrations of `rs` succeed, then they also succeed in any other order and every
request is answered in the same way. -/
theorem C03_order_irrelevant (rs rs' : List (Reg H)) (hp : rs.Perm rs')
    (hok : ∀ b ∈ (registerAll rs Trie.empty).2, b = true) :
    (∀ b ∈ (registerAll rs' Trie.empty).2, b = true) ∧
    ∀ m path, (registerAll rs Trie.empty).1.route m path =
      (registerAll rs' Trie.empty).1.route m path := by
  have hc := (all_registered_iff rs).1 hok
  have hc' : ConflictFree rs' := hp.pairwise hc (fun h c => h c.symm)
  refine ⟨(all_registered_iff rs').2 hc', fun m path => ?_⟩
  rw [C02_exact_dispatch, C02_exact_dispatch, accepted_of_conflictFree hc,
    accepted_of_conflictFree hc']
  exact dispatch_perm hp hc m path

/-- C05, the part that holds: a registration that no other one shadows on the path gets the request
(the handler of the first registration of the same method and entry point is called). Missing: the
same without the hypothesis `hs`, which is false (`C05_full_fails`). -/
theorem C05_matching_reached_partial (rs : List (Reg H)) (r : Reg H) (hr : r ∈ rs)
    (path : List Str) (hm : Matches r.entry path) (hs : ¬ Shadowed rs r.entry path) :
    ∃ r' ∈ rs, r'.method = r.method ∧ r'.entry = r.entry ∧
      (registerAll rs Trie.empty).1.route r.method path = .ok r'.handler := by
  obtain ⟨r', hr', hc⟩ := accepted_covers hr
  refine ⟨r', mem_of_mem_accepted hr', hc.1, hc.2, ?_⟩
  rw [C02_dispatch_iff]
  exact ⟨r', hr', rfl, hc.1, hc.2 ▸ hm, by rw [hc.2]; exact hs⟩

/-- C05, exactness of the condition: a matching registration is passed over precisely when it is
shadowed. -/
theorem C05_own_handler_iff (rs : List (Reg H)) (hcf : ConflictFree rs)
    (hinj : ∀ a ∈ rs, ∀ b ∈ rs, a.handler = b.handler → a = b) (r : Reg H) (hr : r ∈ rs)
    (path : List Str) (hm : Matches r.entry path) :
    (registerAll rs Trie.empty).1.route r.method path = .ok r.handler ↔
      ¬ Shadowed rs r.entry path := by
  rw [C02_dispatch_iff, accepted_of_conflictFree hcf]
  constructor
  · rintro ⟨r', hr', h1, -, -, h2⟩
    rw [← hinj _ hr' _ hr h1]
    exact h2
  · exact fun h => ⟨r, hr, rfl, rfl, hm, h⟩

section Examples

/-- `GET a/x`, `GET _/y`: two procedures whose entry points overlap in the first segment. -/
private def shadowTable : List (Reg Nat) :=
  [⟨.other 0, [.val ['a'], .val ['x']], 1⟩, ⟨.other 0, [.var, .val ['y']], 2⟩]

/-- C05. The full statement is false: a request for `a/y` matches the second procedure of
`shadowTable` and gets the answer 404. -/
theorem C05_full_fails :
    ¬ ∀ (rs : List (Reg Nat)) (m : Method) (path : List Str),
      (∃ r ∈ rs, r.method = m ∧ Matches r.entry path) →
      ∃ h, (registerAll rs Trie.empty).1.route m path = .ok h := by
  intro h
  obtain ⟨x, hx⟩ := h shadowTable (.other 0) [['a'], ['y']]
    ⟨⟨.other 0, [.var, .val ['y']], 2⟩, by simp [shadowTable], rfl,
      .cons trivial (.cons rfl .nil)⟩
  rw [C02_exact_dispatch] at hx
  have h404 : dispatch (.other 0) [['a'], ['y']] (accepted shadowTable) = .error .notFound := rfl
  rw [h404] at hx
  cases hx

/-- `C01`, `C02`: the hypotheses are met by a table with constants and variables. -/
example : (registerAll shadowTable Trie.empty).1.route (.other 0) [['a'], ['x']] = .ok 1 := by
  rw [C02_exact_dispatch]; rfl

example : (registerAll shadowTable Trie.empty).1.route (.other 0) [['b'], ['y']] = .ok 2 := by
  rw [C02_exact_dispatch]; rfl

/-- 405 for an interior node, 404 for an unknown path. -/
example : (registerAll shadowTable Trie.empty).1.route (.other 0) [['a']] =
    .error .methodNotAllowed := by
  rw [C02_exact_dispatch]; rfl

example : (registerAll shadowTable Trie.empty).1.route (.other 0) [['b'], ['x']] =
    .error .notFound := by
  rw [C02_exact_dispatch]; rfl

/-- `C03`: the registrations of `shadowTable` all succeed. -/
example : ∀ b ∈ (registerAll shadowTable Trie.empty).2, b = true := by
  rw [all_registered_iff]; unfold ConflictFree; decide

/-- `C04`: a registration that fails. -/
example : (registerAll (shadowTable ++ ⟨.other 0, [.var, .val ['y']], 3⟩ :: []) Trie.empty).2[2]? =
    some false :=
  (C04_register_fails_iff shadowTable [] ⟨.other 0, [.var, .val ['y']], 3⟩).2
    ⟨⟨.other 0, [.var, .val ['y']], 2⟩, by simp [shadowTable], rfl, rfl⟩

/-- `C05`: the second procedure is not shadowed on `b/y`. -/
example : ¬ Shadowed shadowTable [.var, .val ['y']] [['b'], ['y']] := by
  rintro ⟨pre, suf, p, h1, h2, r, hr, h3⟩
  cases pre with
  | nil =>
    simp at h2
    subst h2
    simp only [shadowTable, List.mem_cons, List.not_mem_nil, or_false] at hr
    rcases hr with rfl | rfl <;> simp at h3
  | cons a pre =>
    simp only [List.cons_append, List.cons.injEq] at h1
    have := congrArg (Seg.var ∈ ·) h1.2
    simp at this

end Examples

end Htrpc
