import Verif.Spec.Struct
import Verif.Model.Visit
import Verif.Lemmas.Res
import Mathlib.Logic.Basic
import Mathlib.Tactic.ByContra

namespace Htrpc
open Spec

/-! ### Lookup -/

theorem lookup_append {α β : Type} [BEq α] (a b : List (α × β)) (k : α) :
    (a ++ b).lookup k = (a.lookup k).or (b.lookup k) := by
  induction a with
  | nil => simp
  | cons x a ih =>
    obtain ⟨y, v⟩ := x
    simp only [List.cons_append, List.lookup_cons]
    cases k == y <;> simp [ih]

theorem lookup_of_mem {α : Type} {fs : List (Str × α)} (hd : DistinctNames fs) {n : Str} {t : α}
    (h : (n, t) ∈ fs) : fs.lookup n = some t := by
  induction fs with
  | nil => cases h
  | cons f fs ih =>
    obtain ⟨m, u⟩ := f
    unfold DistinctNames at hd
    rw [List.map_cons, List.nodup_cons] at hd
    rw [List.lookup_cons]
    rcases List.mem_cons.1 h with h | h
    · cases h; simp
    · have : n ≠ m := by
        intro he
        exact hd.1 (he ▸ List.mem_map.2 ⟨(n, t), h, rfl⟩)
      rw [beq_false_of_ne this]
      exact ih hd.2 h

theorem lookup_none_iff {α : Type} {fs : List (Str × α)} {n : Str} :
    fs.lookup n = none ↔ ¬ Declared fs n := by
  unfold Declared
  induction fs with
  | nil => simp
  | cons f fs ih =>
    obtain ⟨m, u⟩ := f
    rw [List.lookup_cons]
    by_cases h : n = m
    · simp [h]
    · rw [beq_false_of_ne h]
      simp only [List.map_cons, List.mem_cons, h, false_or]
      exact ih

theorem mem_of_lookup {α : Type} {fs : List (Str × α)} {n : Str} {t : α}
    (h : fs.lookup n = some t) : (n, t) ∈ fs := by
  induction fs with
  | nil => simp at h
  | cons f fs ih =>
    obtain ⟨m, u⟩ := f
    rw [List.lookup_cons] at h
    by_cases he : n = m
    · subst he; simp at h; subst h; exact List.mem_cons_self ..
    · rw [beq_false_of_ne he] at h
      exact List.mem_cons_of_mem _ (ih h)

/-! ### Collecting -/

variable {β : Type}

/-- The visitor loop on entries. -/
def gather (read : Ty → β → Option Val) (fs : List (Str × Ty)) :
    List (Str × Val) → List (Str × β) → Option (List (Str × Val))
  | acc, [] => some acc
  | acc, (k, x) :: es =>
    match fs.lookup k with
    | none => gather read fs acc es
    | some t =>
      match acc.lookup k with
      | some _ => none
      | none =>
        match read t x with
        | some v => gather read fs (acc ++ [(k, v)]) es
        | none => none

/-- Value of a field given what was read already. -/
def pendingValue (read : Ty → β → Option Val) (acc : List (Str × Val)) (es : List (Str × β))
    (n : Str) (t : Ty) : Option Val :=
  match acc.lookup n, es.filter (fun e => decide (e.1 = n)) with
  | some v, [] => some v
  | some _, _ :: _ => none
  | none, _ => fieldValue read es n t

theorem collect_none {value : Str → Ty → Option Val} {fs : List (Str × Ty)} {n : Str} {t : Ty}
    (h : (n, t) ∈ fs) (hv : value n t = none) : collectFields value fs = none := by
  induction fs with
  | nil => cases h
  | cons f fs ih =>
    obtain ⟨m, u⟩ := f
    rcases List.mem_cons.1 h with h | h
    · cases h; simp [collectFields, hv]
    · simp only [collectFields, ih h]
      split
      · rename_i h1 h2; cases h2
      · rfl

theorem collect_congr {f g : Str → Ty → Option Val} {fs : List (Str × Ty)}
    (h : ∀ n t, (n, t) ∈ fs → f n t = g n t) : collectFields f fs = collectFields g fs := by
  induction fs with
  | nil => rfl
  | cons x fs ih =>
    obtain ⟨n, t⟩ := x
    simp only [collectFields, h n t (List.mem_cons_self ..),
      ih fun n t ht => h n t (List.mem_cons_of_mem _ ht)]

theorem assemble_eq (acc : List (Str × Val)) (fs : List (Str × Ty)) :
    assemble acc fs = Res.ofOption (collectFields (fun n t =>
      match acc.lookup n with
      | some v => some v
      | none => if isOption t then some .none else none) fs) := by
  induction fs with
  | nil => rfl
  | cons x fs ih =>
    obtain ⟨n, t⟩ := x
    simp only [assemble, collectFields, ih]
    cases acc.lookup n with
    | some v =>
      simp only [Res.bind_ok]
      cases collectFields _ fs <;> rfl
    | none =>
      cases t <;> simp only [missingField, isOption] <;> first
        | rfl
        | (simp only [Res.bind_ok, if_true]; cases collectFields _ fs <;> rfl)

theorem gather_assemble (read : Ty → β → Option Val) (fs : List (Str × Ty))
    (hd : DistinctNames fs) (acc : List (Str × Val)) (es : List (Str × β)) :
    (do assemble (← Res.ofOption (gather read fs acc es)) fs : Res (List (Str × Val))) =
      Res.ofOption (collectFields (pendingValue read acc es) fs) := by
  induction es generalizing acc with
  | nil =>
    simp only [gather, Res.ofOption_some, Res.bind_ok, assemble_eq]
    congr 1
    apply collect_congr
    intro n t _
    simp only [pendingValue, fieldValue, List.filter_nil]
    cases acc.lookup n <;> rfl
  | cons e es ih =>
    obtain ⟨k, x⟩ := e
    simp only [gather]
    cases hl : fs.lookup k with
    | none =>
      simp only []
      rw [ih]
      congr 1
      apply collect_congr
      intro n t hm
      have hne : ¬ k = n := by
        rintro rfl
        rw [lookup_of_mem hd hm] at hl
        cases hl
      simp only [pendingValue, fieldValue, List.filter_cons, hne, decide_false, Bool.false_eq_true,
        if_false]
    | some t =>
      have hmem := mem_of_lookup hl
      simp only []
      cases ha : acc.lookup k with
      | some w =>
        simp only [Res.ofOption_none, Res.bind_err]
        rw [collect_none hmem]
        · rfl
        · simp [pendingValue, ha]
      | none =>
        simp only []
        cases hr : read t x with
        | none =>
          simp only [Res.ofOption_none, Res.bind_err]
          rw [collect_none hmem]
          · rfl
          · simp only [pendingValue, ha, fieldValue, List.filter_cons, decide_true, if_true]
            cases es.filter (fun e => decide (e.1 = k)) <;> simp [hr]
        | some v =>
          simp only []
          rw [ih]
          congr 1
          apply collect_congr
          intro n u hm
          simp only [pendingValue, fieldValue, List.filter_cons, lookup_append, List.lookup_cons]
          by_cases hne : k = n
          · subst hne
            have htu : t = u := by
              have := lookup_of_mem hd hm
              rw [hl] at this
              simpa using this
            subst htu
            simp only [ha, beq_self_eq_true, Option.or_some, Option.getD_none, decide_true, if_true]
            cases es.filter (fun e => decide (e.1 = k)) <;> simp [hr]
          · rw [beq_false_of_ne (Ne.symm hne)]
            simp only [List.lookup_nil, Option.or_none, hne, decide_false, Bool.false_eq_true,
              if_false]

/-- The visitor loop over a state that presents entries one by one. -/
theorem visitStruct_gather {σ : Type} {nextKey : σ → Res (Option (Str × σ))} {ignore : σ → Res σ}
    {read : Ty → β → Option Val} {fs : List (Str × Ty)} {decs : List (Str × Dec σ)}
    {dec : Ty → Dec σ} (hdecs : ∀ k, decs.lookup k = (fs.lookup k).map dec)
    (mk : List (Str × β) → σ) (mid : β → List (Str × β) → σ)
    (hend : nextKey (mk []) = .ok none)
    (hkey : ∀ k x es, nextKey (mk ((k, x) :: es)) = .ok (some (k, mid x es)))
    (hdec : ∀ t x es, dec t (mid x es) =
      (match read t x with | some v => .ok (v, mk es) | none => .err .invalid))
    (es : List (Str × β))
    (hign : (∀ e ∈ es, Declared fs e.1) ∨ ∀ x es, ignore (mid x es) = .ok (mk es))
    (fuel : Nat) (hf : es.length < fuel) (acc : List (Str × Val)) :
    visitStruct nextKey ignore decs fuel acc (mk es) =
      (do .ok (← Res.ofOption (gather read fs acc es), mk [])) := by
  induction es generalizing fuel acc with
  | nil =>
    cases fuel with
    | zero => simp at hf
    | succ fuel => simp [visitStruct, hend, gather]
  | cons e es ih =>
    obtain ⟨k, x⟩ := e
    have hign' : (∀ e ∈ es, Declared fs e.1) ∨ ∀ x es, ignore (mid x es) = .ok (mk es) :=
      hign.imp_left fun h e he => h e (List.mem_cons_of_mem _ he)
    cases fuel with
    | zero => simp at hf
    | succ fuel =>
      have hf' : es.length < fuel := by simpa using hf
      simp only [visitStruct, hkey, Res.bind_ok, gather, hdecs]
      cases hl : fs.lookup k with
      | none =>
        simp only [Option.map_none]
        have hi : ignore (mid x es) = .ok (mk es) := by
          rcases hign with h | h
          · exact absurd (h (k, x) (List.mem_cons_self ..)) (lookup_none_iff.1 hl)
          · exact h x es
        rw [hi, Res.bind_ok, ih hign' fuel hf']
      | some t =>
        simp only [Option.map_some]
        cases acc.lookup k with
        | some w => rfl
        | none =>
          simp only [hdec]
          cases read t x with
          | none => rfl
          | some v => simp only [Res.bind_ok]; rw [ih hign' fuel hf']

theorem pending_nil (read : Ty → β → Option Val) (es : List (Str × β)) :
    pendingValue read [] es = fieldValue read es := by
  funext n t; simp [pendingValue]

/-! ### Consequences of the specification -/

theorem fieldValue_perm {read : Ty → β → Option Val} {es es' : List (Str × β)} (h : es.Perm es')
    (n : Str) (t : Ty) : fieldValue read es n t = fieldValue read es' n t := by
  have hp := h.filter (fun e => decide (e.1 = n))
  simp only [fieldValue]
  cases h1 : es.filter (fun e => decide (e.1 = n)) with
  | nil =>
    rw [h1] at hp
    rw [hp.nil_eq.symm]
  | cons a l =>
    cases l with
    | nil =>
      rw [h1] at hp
      rw [List.singleton_perm.1 hp]
    | cons b l =>
      rw [h1] at hp
      have := hp.length_eq
      cases h2 : es'.filter (fun e => decide (e.1 = n)) with
      | nil => rw [h2] at this; simp at this
      | cons a' l' =>
        cases l' with
        | nil => rw [h2] at this; simp at this
        | cons b' l' => rfl

theorem readStruct_perm {read : Ty → β → Option Val} {es es' : List (Str × β)} (h : es.Perm es')
    (fs : List (Str × Ty)) : readStruct read fs es = readStruct read fs es' := by
  unfold readStruct
  rw [collect_congr fun n t _ => fieldValue_perm h n t]

theorem readStruct_filter {read : Ty → β → Option Val} (es : List (Str × β))
    (fs : List (Str × Ty)) :
    readStruct read fs (es.filter fun e => decide (Declared fs e.1)) = readStruct read fs es := by
  unfold readStruct
  congr 1
  apply collect_congr
  intro n t h
  have hdecl : Declared fs n := List.mem_map.2 ⟨_, h, rfl⟩
  simp only [fieldValue, List.filter_filter]
  have : (es.filter fun e => decide (e.1 = n) && decide (Declared fs e.1)) =
      es.filter fun e => decide (e.1 = n) := by
    apply List.filter_congr
    intro e _
    by_cases he : e.1 = n
    · simp [he, hdecl]
    · simp [he]
  rw [this]

theorem readStruct_dup {read : Ty → β → Option Val} {es : List (Str × β)} {fs : List (Str × Ty)}
    {n : Str} (hn : Declared fs n) (h : 2 ≤ (es.filter fun e => decide (e.1 = n)).length) :
    readStruct read fs es = none := by
  obtain ⟨⟨m, t⟩, hm, rfl⟩ := List.mem_map.1 hn
  unfold readStruct
  rw [collect_none hm]
  · rfl
  · simp only [fieldValue]
    split
    · rename_i he; rw [he] at h; simp at h
    · rename_i he; rw [he] at h; simp at h
    · rfl

/-! ### Fields and their entries -/

theorem FieldEntries_name {present : Val → β → Prop} {absent : Val → Prop}
    {fs : List (Str × Val)} {es : List (Str × β)} (h : FieldEntries present absent fs es)
    {n : Str} (hn : Declared es n) : Declared fs n := by
  unfold Declared at *
  induction h with
  | nil => exact hn
  | absent _ _ ih => exact List.mem_cons_of_mem _ (ih hn)
  | present _ _ ih =>
    rcases List.mem_cons.1 hn with h | h
    · exact h ▸ List.mem_cons_self ..
    · exact List.mem_cons_of_mem _ (ih h)

theorem filter_name_nil {es : List (Str × β)} {n : Str} (h : ¬ Declared es n) :
    es.filter (fun e => decide (e.1 = n)) = [] := by
  apply List.filter_eq_nil_iff.2
  intro e he hd
  simp only [decide_eq_true_eq] at hd
  exact h (List.mem_map.2 ⟨e, he, hd⟩)

/-- The entries with the name of a field. -/
theorem FieldEntries_filter {present : Val → β → Prop} {absent : Val → Prop}
    {fs : List (Str × Val)} {es : List (Str × β)} (h : FieldEntries present absent fs es)
    (hd : DistinctNames fs) {n : Str} {v : Val} (hm : (n, v) ∈ fs) :
    (absent v ∧ es.filter (fun e => decide (e.1 = n)) = []) ∨
      ∃ x, present v x ∧ es.filter (fun e => decide (e.1 = n)) = [(n, x)] := by
  induction h with
  | nil => cases hm
  | @absent m w fs es ha h ih =>
    unfold DistinctNames at hd
    rw [List.map_cons, List.nodup_cons] at hd
    rcases List.mem_cons.1 hm with he | hm
    · cases he
      exact .inl ⟨ha, filter_name_nil fun hn => hd.1 (FieldEntries_name h hn)⟩
    · exact ih hd.2 hm
  | @present m w x fs es hp h ih =>
    unfold DistinctNames at hd
    rw [List.map_cons, List.nodup_cons] at hd
    rcases List.mem_cons.1 hm with he | hm
    · cases he
      refine .inr ⟨x, hp, ?_⟩
      rw [List.filter_cons_of_pos (by simp),
        filter_name_nil fun hn => hd.1 (FieldEntries_name h hn)]
    · have hne : m ≠ n := by
        intro e
        exact hd.1 (e ▸ List.mem_map.2 ⟨(n, v), hm, rfl⟩)
      rw [List.filter_cons_of_neg (by simpa using hne)]
      exact ih hd.2 hm

theorem HasTyFields_names {fs : List (Str × Val)} {ts : List (Str × Ty)} (h : HasTyFields fs ts) :
    fs.map Prod.fst = ts.map Prod.fst := by
  match h with
  | .nil => rfl
  | .cons _ h => simp [HasTyFields_names h]

theorem collect_of_fields {value : Str → Ty → Option Val} {fs : List (Str × Val)}
    {ts : List (Str × Ty)} (h : HasTyFields fs ts)
    (hv : ∀ n v t, (n, v) ∈ fs → (n, t) ∈ ts → HasTy v t → value n t = some v) :
    collectFields value ts = some fs := by
  match h with
  | .nil => rfl
  | .cons (n := n) (v := v) (t := t) h1 h2 =>
    rw [collectFields, hv n v t (List.mem_cons_self ..) (List.mem_cons_self ..) h1,
      collect_of_fields h2 fun n v t a b => hv n v t (List.mem_cons_of_mem _ a)
        (List.mem_cons_of_mem _ b)]

/-- A struct is read back from its entries. -/
theorem readStruct_of_fields {read : Ty → β → Option Val} {present : Val → β → Prop}
    {fs : List (Str × Val)} {es : List (Str × β)}
    (h : FieldEntries present (· = Val.none) fs es) {ts : List (Str × Ty)} (ht : HasTyFields fs ts)
    (hd : DistinctNames ts)
    (hr : ∀ v x t, present v x → HasTy v t → read t x = some v) :
    readStruct read ts es = some (.struct fs) := by
  have hdf : DistinctNames fs := by unfold DistinctNames; rw [HasTyFields_names ht]; exact hd
  rw [readStruct, collect_of_fields ht]
  · rfl
  intro n v t hn _ hvt
  rcases FieldEntries_filter h hdf hn with ⟨rfl, hf⟩ | ⟨x, hx, hf⟩
  · simp only [fieldValue, hf]
    cases hvt
    rfl
  · simp only [fieldValue, hf]
    exact hr v x t hx hvt

theorem HasTyFields_type {fs : List (Str × Val)} {ts : List (Str × Ty)} (h : HasTyFields fs ts)
    {n : Str} {v : Val} (hm : (n, v) ∈ fs) : ∃ t, (n, t) ∈ ts ∧ HasTy v t := by
  match h with
  | .nil => cases hm
  | .cons (t := t) h1 h2 =>
    rcases List.mem_cons.1 hm with he | hm
    · cases he; exact ⟨t, List.mem_cons_self .., h1⟩
    · obtain ⟨t, ht, hv⟩ := HasTyFields_type h2 hm
      exact ⟨t, List.mem_cons_of_mem _ ht, hv⟩

/-- The fields of a struct that was read. -/
theorem mem_collect {value : Str → Ty → Option Val} {ts : List (Str × Ty)}
    {vs : List (Str × Val)} (h : collectFields value ts = some vs) {n : Str} {t : Ty}
    (hm : (n, t) ∈ ts) : ∃ v, value n t = some v ∧ (n, v) ∈ vs := by
  induction ts generalizing vs with
  | nil => cases hm
  | cons a ts ih =>
    obtain ⟨m, u⟩ := a
    simp only [collectFields] at h
    split at h
    · rename_i v ws h1 h2
      cases h
      rcases List.mem_cons.1 hm with he | hm
      · cases he; exact ⟨v, h1, List.mem_cons_self ..⟩
      · obtain ⟨w, hw, hw'⟩ := ih h2 hm
        exact ⟨w, hw, List.mem_cons_of_mem _ hw'⟩
    · cases h

end Htrpc
