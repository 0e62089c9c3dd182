/-
C90: handlers are called for calls of clients only, and at most once for each.
-/
import Mathlib.Data.List.Nodup
import Verif.Props.Progress
import Verif.Props.System

namespace Htrpc
open Spec Http

section
variable [LawfulFloatText] [UrlText] [JsonText]

/-- A block contains at most one call of a handler. -/
theorem block_calls {cfg : ServerCfg} {es : List ConnEvent} [Wire] {h : ReqHead}
    {l : List ConnEffect} (hb : (h, l) ∈ blocks (connLog cfg es)) : (calls l).length ≤ 1 := by
  obtain ⟨n, hn⟩ := List.mem_iff_getElem?.1 hb
  rcases (transcript cfg es).blocks n h l hn with hx | ⟨hx, -⟩
  · generalize hl : ConnEffect.read h :: l = l0 at hx
    cases hx <;> cases hl <;> simp [calls]
  · generalize hl : ConnEffect.read h :: l = l0 at hx
    cases hx <;> cases hl <;> simp [calls]

/-- The calls of handlers are those in the blocks. -/
theorem Spec.Transcript.calls_blocks {cfg : ServerCfg} {log : List ConnEffect}
    (ht : Transcript cfg log) :
    Spec.calls log = (Spec.blocks log).flatMap fun b => Spec.calls b.2 := by
  induction ht with
  | @exchange h l rest hx ht ih =>
    obtain ⟨l, rfl, hl⟩ := hx.shape
    rw [blocks_cons h hl ht.fresh, List.flatMap_cons, ← ih]
    simp [Spec.calls]
  | idle => rfl
  | finished => rfl
  | failed => rfl
  | @started h l hx =>
    obtain ⟨l, rfl, hl⟩ := hx.shape
    have := blocks_cons (rest := []) h hl rfl
    rw [List.append_nil] at this
    rw [this]
    simp [Spec.calls, Spec.blocks]
  | @broken h l hx =>
    obtain ⟨l, rfl, hl⟩ := hx.shape
    rw [blocks_cons h hl fresh_warned]
    simp [Spec.calls, Spec.blocks]
  | @panicked h hp => simp [Spec.calls, Spec.blocks, isRead, isFinal]

end

/-- Of a list in which each entry has a partner at its place in another, the partners of what is in
the entries. -/
theorem pick {α β γ : Type} {Q : α → γ → Prop} {f : β → List γ} :
    ∀ {bs : List β} {rs : List α}, (∀ b ∈ bs, (f b).length ≤ 1) →
      (∀ (n : Nat) b, bs[n]? = some b → ∃ a, rs[n]? = some a ∧ ∀ x ∈ f b, Q a x) →
      ∃ as, as.Sublist rs ∧ List.Forall₂ Q as (bs.flatMap f)
  | [], rs, _, _ => ⟨[], List.nil_sublist _, .nil⟩
  | b :: bs, [], _, h => by
    obtain ⟨a, ha, -⟩ := h 0 b rfl
    cases ha
  | b :: bs, r :: rs, hl, h => by
    obtain ⟨as, h1, h2⟩ := pick (bs := bs) (rs := rs) (fun x hx => hl x (List.mem_cons_of_mem _ hx))
      fun n b hb => h (n + 1) b hb
    obtain ⟨a, ha, hq⟩ := h 0 b rfl
    cases ha
    have hb := hl b List.mem_cons_self
    rw [List.flatMap_cons]
    generalize f b = y at hb hq
    match y with
    | [] => exact ⟨as, h1.cons _, h2⟩
    | [x] => exact ⟨r :: as, h1.cons_cons _, .cons (hq x List.mem_cons_self) h2⟩
    | _ :: _ :: _ => simp at hb

section
variable [LawfulFloatText]

theorem wireLog_split {x : Conn × WireStep} : ∀ {evs : List SysEvent} {s : Sys}, x ∈ wireLog evs s →
    ∃ pre e post, evs = pre ++ e :: post ∧ wireOf (Sys.run pre s).2 e = some x
  | [], s, h => by cases h
  | e :: es, s, h => by
    rw [wireLog] at h
    rcases List.mem_append.1 h with h | h
    · exact ⟨[], e, es, rfl, Option.mem_toList.1 h⟩
    · obtain ⟨pre, e', post, rfl, h'⟩ := wireLog_split h
      exact ⟨e :: pre, e', post, rfl, h'⟩

theorem begins_conn {i j : Nat} {p : Proc} {inner : CallInner} {c d : Conn} {r : Request}
    (h : begins i p inner c = some (d, .sends j r)) : j = i ∧ d = c := by
  unfold begins at h
  split at h
  · cases h; exact ⟨rfl, rfl⟩
  · cases h

/-- **C90.** A request goes over a connection that was opened to the address of its call. -/
theorem C90_addressed (size : Nat) (evs : List SysEvent) (c : Conn) (i : Nat) (r : Request)
    (hr : (i, r) ∈ requestsOn (onConn c (wireLog evs (.new size)))) :
    ∃ p a v b, (asked evs)[i]? = some (p, a, v, b) ∧
      ∃ j, .opened j a c ∈ (Sys.run evs (.new size)).1 := by
  obtain ⟨pre, e, post, rfl, hw⟩ := wireLog_split (onConn_mem.1 (requestsOn_mem.1 hr))
  have lift : ∀ (pre' post' : List SysEvent) a, pre ++ e :: post = pre' ++ post' →
      (Sys.run pre' (.new size)).2.addrOf i = some a →
      (∃ j, .opened j a c ∈ (Sys.run pre' (.new size)).1) →
      ∃ p a v b, (asked (pre ++ e :: post))[i]? = some (p, a, v, b) ∧
        ∃ j, .opened j a c ∈ (Sys.run (pre ++ e :: post) (.new size)).1 := by
    intro pre' post' a he ha ⟨j, hj⟩
    rw [he]
    obtain ⟨y, hy, rfl⟩ := Option.map_eq_some_iff.1 ha
    obtain ⟨v, b, h⟩ := asked_call size pre' i y hy
    refine ⟨y.proc, y.addr, v, b, ?_, j, ?_⟩
    · rw [asked_append, List.getElem?_append_left (List.getElem?_eq_some_iff.1 h).1, h]
    · rw [sys_run_append]
      exact List.mem_append_left _ hj
  have held : (Sys.run pre (.new size)).2.hold i = some c →
      ∃ p a v b, (asked (pre ++ e :: post))[i]? = some (p, a, v, b) ∧
        ∃ j, .opened j a c ∈ (Sys.run (pre ++ e :: post) (.new size)).1 := by
    intro h
    obtain ⟨xs, -, hpl⟩ := reach_places size pre
    obtain ⟨a, h1, h2⟩ := hpl.heldPeer i c h
    exact lift pre _ a rfl h1 h2
  cases e with
  | poll k res =>
    rw [wireOf] at hw
    cases hy : (Sys.run pre (.new size)).2.calls[k]? with
    | none => rw [hy] at hw; cases hw
    | some y =>
      rw [hy] at hw
      dsimp only at hw
      split at hw
      · rename_i inner d hst
        obtain ⟨rfl, rfl⟩ := begins_conn hw
        exact held (by rw [Sys.hold, hy, Option.bind_some, hst]; rfl)
      · rename_i inner a hst
        split at hw
        · rename_i hres
          subst hres
          obtain ⟨rfl, rfl⟩ := begins_conn hw
          have hop : .opened i a (Sys.run pre (.new size)).2.next ∈
              (Sys.run (pre ++ [.poll i .connected]) (.new size)).1 := by
            rw [sys_run_append, Sys.run, Sys.step, Sys.poll, hy]
            simp only [hst]
            exact List.mem_append_right _ (List.mem_append_left _ List.mem_cons_self)
          obtain ⟨xs, -, hpl⟩ := reach_places size (pre ++ [.poll i .connected])
          exact lift (pre ++ [.poll i .connected]) post a (by simp) (hpl.openedPeer _ _ _ hop) ⟨i, hop⟩
        · cases hw
      · rename_i d inner hst
        unfold ioStep at hw
        split at hw <;> cases hw
      · cases hw
  | _ => cases hw

omit [LawfulFloatText] in
/-- The requests on a connection are those of all connections. -/
theorem requests_all (w : List (Conn × WireStep)) (c : Conn) :
    requestsOn (onConn c w) = ((w.filterMap fun | (d, .sends i r) => some (d, i, r) | _ => none).filter
      fun x => decide (x.1 = c)).map Prod.snd := by
  induction w with
  | nil => rfl
  | cons x w ih =>
    obtain ⟨d, x⟩ := x
    by_cases hd : d = c
    · subst hd
      cases x <;> simpa [onConn, requestsOn] using ih
    · cases x <;> simpa [onConn, requestsOn, hd] using ih

omit [LawfulFloatText] in
theorem ids_all (w : List (Conn × WireStep)) :
    (w.filterMap fun | (_, .sends i _) => some i | _ => none) =
      (w.filterMap fun | (d, .sends i r) => some (d, i, r) | _ => none).map fun x => x.2.1 := by
  induction w with
  | nil => rfl
  | cons x w ih =>
    obtain ⟨d, x⟩ := x
    cases x <;> simpa using ih

/-- On one connection the requests come from different calls. -/
theorem requests_nodup (size : Nat) (evs : List SysEvent) (c : Conn) :
    ((requestsOn (onConn c (wireLog evs (.new size)))).map Prod.fst).Nodup := by
  have hn := (C78_own_request size evs).2
  have hn := Eq.mp (congrArg List.Nodup (ids_all _)) hn
  rw [requests_all, List.map_map]
  exact (List.Sublist.map _ List.filter_sublist).nodup hn

/-- **C90.** No call sends two requests: over all connections, the requests come from different
calls. -/
theorem C90_one_request (size : Nat) (evs : List SysEvent) (c c' : Conn) (n n' i : Nat) (r r' : Request)
    (h : (requestsOn (onConn c (wireLog evs (.new size))))[n]? = some (i, r))
    (h' : (requestsOn (onConn c' (wireLog evs (.new size))))[n']? = some (i, r')) :
    c = c' ∧ n = n' ∧ r = r' := by
  have hn := (C78_own_request size evs).2
  have h1 := List.mem_of_getElem? h
  have h2 := List.mem_of_getElem? h'
  have hc := requests_nodup size evs c
  have hn := Eq.mp (congrArg List.Nodup (ids_all _)) hn
  have h3 : (c, i, r) = (c', i, r') := by
    rw [requests_all] at h1 h2
    obtain ⟨⟨d, x⟩, h1, rfl⟩ := List.mem_map.1 h1
    obtain ⟨⟨d', x'⟩, h2, e⟩ := List.mem_map.1 h2
    cases e
    have k1 : d = c := by simpa using (List.mem_filter.1 h1).2
    have k2 : d' = c' := by simpa using (List.mem_filter.1 h2).2
    subst k1 k2
    exact List.inj_on_of_nodup_map hn (List.mem_filter.1 h1).1 (List.mem_filter.1 h2).1 rfl
  cases h3
  refine ⟨rfl, ?_, rfl⟩
  have e1 := congrArg (Option.map Prod.fst) h
  have e2 := congrArg (Option.map Prod.fst) h'
  rw [← List.getElem?_map] at e1 e2
  have hlt := (List.getElem?_eq_some_iff.1 e1).1
  exact (List.getElem?_inj hlt hc).1 (e1.trans e2.symm)

variable [UrlText] [JsonText] [MethodNames]

/-- **C90.** Pooled clients make any calls with requests that HTTP can express, and servers are at the
other ends of the connections.  Whatever happens, also if calls fail, are dropped or never end: every
call of a handler has been caused by one call of a client, whose request went to its address, and gets
the body and the parts that were sent there (as C77 says); and no call of a client causes two calls of
handlers, on one connection or on two. -/
theorem C90_at_most_once (size : Nat) (evs : List SysEvent) (cfg : Conn → ServerCfg)
    (es : Conn → List ConnEvent) (phrase : Status → Bytes) (types : Nat → List (Str × Ty))
    (g : Conn → ReadBody)
    (hreq : ∀ i p a v b r, (asked evs)[i]? = some (p, a, v, b) →
      serRequest p.method p.entry v b = .ok r →
      ∃ fs, v = .struct fs ∧ Issues ⟨p.method, p.entry, fs, types i, b⟩ r) :
    letI := httpWire
    (∀ c, Linked (onConn c (wireLog evs (.new size))) (es c) (connLog (cfg c) (es c)) phrase) →
    (∀ c, ReadsWhole (cfg c) (g c) .new (es c)) →
    ∃ causes : Conn → List Nat,
      (∀ c, List.Forall₂ (fun i (x : Service × Val × Val) =>
          ∃ p a fs b j, (asked evs)[i]? = some (p, a, .struct fs, b) ∧
            .opened j a c ∈ (Sys.run evs (.new size)).1 ∧
            x.1 ∈ (cfg c).services ∧ x.1.method = p.method ∧ g c x.1 x.2.1 b x.2.2 ∧
            (x.1.entry = p.entry → x.1.reqTy = .struct (types i) →
              ∃ ws, x.2.1 = .struct ws ∧ FieldsArrive PartArrives fs ws))
        (causes c) (calls (connLog (cfg c) (es c)))) ∧
      (∀ c, (causes c).Nodup) ∧
      ∀ c c', c ≠ c' → ∀ i ∈ causes c, i ∉ causes c' := by
  let := httpWire
  intro hlink hread
  have key : ∀ c, ∃ as : List (Nat × Request),
      as.Sublist (requestsOn (onConn c (wireLog evs (.new size)))) ∧ _ := fun c =>
    pick (Q := fun (a : Nat × Request) (x : Service × Val × Val) =>
      ∃ p ad fs b j, (asked evs)[a.1]? = some (p, ad, .struct fs, b) ∧
            .opened j ad c ∈ (Sys.run evs (.new size)).1 ∧
            x.1 ∈ (cfg c).services ∧ x.1.method = p.method ∧ g c x.1 x.2.1 b x.2.2 ∧
            (x.1.entry = p.entry → x.1.reqTy = .struct (types a.1) →
              ∃ ws, x.2.1 = .struct ws ∧ FieldsArrive PartArrives fs ws))
      (f := fun b => calls b.2)
      (bs := blocks (connLog (cfg c) (es c))) (fun b hb => block_calls hb) fun n b hb => by
        obtain ⟨k, i, r, h1, -, ⟨p, a, h2, h3, h4, h5⟩, -, h6⟩ :=
          conn_block size evs types hreq c (cfg c) (es c) phrase (g c) (hlink c) (hread c) n b.1 b.2 hb
        refine ⟨_, h1, fun x hx => ?_⟩
        obtain ⟨p', a', v', b', h7, j, h8⟩ := C90_addressed size evs c i r (List.mem_of_getElem? h1)
        rw [h2] at h7
        cases h7
        obtain ⟨k1, k2, k3, k4⟩ := h6 x.1 x.2.1 x.2.2 hx
        refine ⟨p, a, k.fields, k.body, j, h2, h8, k1, k2.trans h3.symm, k3, fun e1 e2 => ?_⟩
        exact k4 (e1.trans h4) (by rw [e2, h5])
  obtain ⟨as, h⟩ := Classical.axiomOfChoice key
  refine ⟨fun c => (as c).map Prod.fst, fun c => ?_, fun c => ?_, fun c c' hc i hi hi' => ?_⟩
  · rw [(transcript (cfg c) (es c)).calls_blocks, List.forall₂_map_left_iff]
    exact (h c).2
  · exact ((h c).1.map _).nodup (requests_nodup size evs c)
  · obtain ⟨x, hx, rfl⟩ := List.mem_map.1 hi
    obtain ⟨y, hy, e⟩ := List.mem_map.1 hi'
    obtain ⟨n, hn⟩ := List.mem_iff_getElem?.1 ((h c).1.subset hx)
    obtain ⟨n', hn'⟩ := List.mem_iff_getElem?.1 ((h c').1.subset hy)
    obtain ⟨i, r⟩ := x
    obtain ⟨i', r'⟩ := y
    cases e
    exact hc (C90_one_request size evs c c' n n' _ r r' hn hn').1

end
end Htrpc
