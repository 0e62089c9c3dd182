/-
C144: services under a prefix.
-/
import Verif.Spec.Mount
import Verif.Props.Deploy
import Verif.Props.ServerExamples

namespace Htrpc
open Spec

section
variable {H : Type}

theorem after_accept (s : Seg) (T : List (Reg H)) (r : Reg H) :
    after s (accept T r) = (after s [r]).foldl accept (after s T) := by
  cases he : r.entry with
  | nil =>
    have h1 : after s [r] = [] := by simp [after, he]
    rw [h1, accept]
    split
    · rfl
    · rw [after, List.filterMap_append]
      change after s T ++ after s [r] = _
      rw [h1, List.append_nil]
      rfl
  | cons s' e =>
    by_cases hs : s' = s
    · subst hs
      have h1 : after s' [r] = [{ r with entry := e }] := by simp [after, he]
      rw [h1]
      show _ = accept (after s' T) { r with entry := e }
      have key : (∃ r' ∈ T, Conflict r' r) ↔ ∃ r' ∈ after s' T, Conflict r' { r with entry := e } := by
        constructor
        · rintro ⟨r', hr', hm, hc⟩
          rw [he] at hc
          refine ⟨{ r' with entry := e }, ?_, hm, rfl⟩
          rw [mem_after]
          show (⟨r'.method, s' :: e, r'.handler⟩ : Reg H) ∈ T
          rw [← hc]
          exact hr'
        · rintro ⟨r', hr', hm, hc⟩
          refine ⟨_, mem_after.1 hr', hm, ?_⟩
          rw [he]
          show s' :: r'.entry = s' :: e
          rw [hc]
      rw [accept, accept]
      simp only [key]
      split
      · rfl
      · rw [after, List.filterMap_append]
        change after s' T ++ after s' [r] = _
        rw [h1]
    · have h1 : after s [r] = [] := by simp [after, he, hs]
      rw [h1, accept]
      split
      · rfl
      · rw [after, List.filterMap_append]
        change after s T ++ after s [r] = _
        rw [h1, List.append_nil]
        rfl

theorem after_cons (s : Seg) (r : Reg H) (rs : List (Reg H)) : after s (r :: rs) = after s [r] ++ after s rs := by
  rw [after, ← List.singleton_append, List.filterMap_append]
  rfl

theorem after_accepted (s : Seg) (rs : List (Reg H)) : after s (accepted rs) = accepted (after s rs) := by
  have key : ∀ (rs T : List (Reg H)), after s (rs.foldl accept T) = (after s rs).foldl accept (after s T) := by
    intro rs
    induction rs with
    | nil => intro T; rfl
    | cons r rs ih =>
      intro T
      rw [List.foldl_cons, ih, after_accept, after_cons s r rs, List.foldl_append]
  exact key rs []

theorem accepted_ne_nil {rs : List (Reg H)} (h : rs ≠ []) : accepted rs ≠ [] := by
  obtain ⟨r, hr⟩ := List.exists_mem_of_ne_nil _ h
  obtain ⟨r', hr', -⟩ := accepted_covers hr
  exact List.ne_nil_of_mem hr'

/-- A path that begins with a constant of the table goes on below it. -/
theorem route_val (rs : List (Reg H)) (a : Str) (h : after (.val a) rs ≠ []) (m : Method) (path : List Str) :
    (registerAll rs Trie.empty).1.route m (a :: path) =
      (registerAll (after (.val a) rs) Trie.empty).1.route m path := by
  rw [C02_exact_dispatch, C02_exact_dispatch, dispatch, after_accepted, if_pos (accepted_ne_nil h)]

theorem after_mount (a : Str) (pre : List Str) (rs : List (Reg H)) :
    after (.val a) (mount (a :: pre) rs) = mount pre rs := by
  induction rs with
  | nil => rfl
  | cons r rs ih =>
    show after (.val a) (_ :: mount (a :: pre) rs) = _ :: mount pre rs
    rw [after_cons, ih]
    simp [after]

theorem after_mount_ne {a b : Str} (h : b ≠ a) (pre : List Str) (rs : List (Reg H)) :
    after (.val b) (mount (a :: pre) rs) = [] := by
  induction rs with
  | nil => rfl
  | cons r rs ih =>
    show after (.val b) (_ :: mount (a :: pre) rs) = _
    rw [after_cons, ih]
    simp [after, Ne.symm h]

theorem after_mount_var (a : Str) (pre : List Str) (rs : List (Reg H)) :
    after .var (mount (a :: pre) rs) = [] := by
  induction rs with
  | nil => rfl
  | cons r rs ih =>
    show after .var (_ :: mount (a :: pre) rs) = _
    rw [after_cons, ih]
    simp [after]

theorem mount_nil (rs : List (Reg H)) : mount [] rs = rs := by simp [mount]

theorem mount_ne {rs : List (Reg H)} (h : rs ≠ []) (pre : List Str) : mount pre rs ≠ [] := by
  simpa [mount] using h

/-- **C144.** A table of services behind a prefix answers what the table answers without it. -/
theorem C144_mount (rs : List (Reg H)) (hne : rs ≠ []) (pre : List Str) (m : Method) (path : List Str) :
    (registerAll (mount pre rs) Trie.empty).1.route m (pre ++ path) =
      (registerAll rs Trie.empty).1.route m path := by
  induction pre with
  | nil => rw [mount_nil]; rfl
  | cons a pre ih =>
    rw [List.cons_append, route_val _ a (by rw [after_mount]; exact mount_ne hne pre), after_mount, ih]

/-- **C144.** Nothing else is there: a path on the way to the prefix gets 405, every other one 404. -/
theorem C144_elsewhere (rs : List (Reg H)) (hne : rs ≠ []) (pre : List Str) (m : Method) (path : List Str)
    (hp : ¬ pre <+: path) :
    (registerAll (mount pre rs) Trie.empty).1.route m path =
      .error (if path <+: pre then .methodNotAllowed else .notFound) := by
  induction pre generalizing path with
  | nil => exact absurd (List.nil_prefix) hp
  | cons a pre ih =>
    cases path with
    | nil =>
      rw [C02_exact_dispatch, dispatch, if_pos List.nil_prefix]
      have : (accepted (mount (a :: pre) rs)).find? (fun r => decide (r.entry = [] ∧ r.method = m)) = none := by
        rw [List.find?_eq_none]
        intro r hr
        have := mem_of_mem_accepted hr
        obtain ⟨r', -, rfl⟩ := List.mem_map.1 this
        simp
      rw [this]
    | cons b path =>
      by_cases hb : b = a
      · subst hb
        rw [route_val _ b (by rw [after_mount]; exact mount_ne hne pre), after_mount,
          ih path (fun h => hp ((List.prefix_cons_inj b).2 h))]
        simp only [List.prefix_cons_inj]
      · rw [C02_exact_dispatch, dispatch, after_accepted, after_accepted, after_mount_ne hb, after_mount_var]
        have : ¬ b :: path <+: a :: pre := by
          rintro ⟨t, ht⟩
          exact hb (List.cons.inj ht).1
        rw [if_neg this]
        simp [accepted]

/-- **C144.** Which registrations succeed does not depend on the prefix. -/
theorem C144_mount_registered (rs : List (Reg H)) (pre : List Str) :
    (registerAll (mount pre rs) Trie.empty).2 = (registerAll rs Trie.empty).2 := by
  apply List.ext_getElem?
  intro i
  by_cases hi : i < rs.length
  · have e : rs = rs.take i ++ rs[i] :: rs.drop (i + 1) := by simp
    have hl : (rs.take i).length = i := by simp; omega
    have h1 := C04_register_fails_iff (rs.take i) (rs.drop (i + 1)) rs[i]
    have h2 := C04_register_fails_iff (mount pre (rs.take i)) (mount pre (rs.drop (i + 1)))
      { rs[i] with entry := pre.map Seg.val ++ rs[i].entry }
    have e' : mount pre rs = mount pre (rs.take i) ++ { rs[i] with entry := pre.map Seg.val ++ rs[i].entry } ::
        mount pre (rs.drop (i + 1)) := by
      conv => lhs; rw [e]
      simp only [mount, List.map_append, List.map_cons]
    rw [← e, hl] at h1
    rw [← e', show (mount pre (rs.take i)).length = i by simp [mount]; omega] at h2
    have hk : (registerAll (mount pre rs) Trie.empty).2[i]? = some false ↔
        (registerAll rs Trie.empty).2[i]? = some false := by
      rw [h1, h2]
      constructor
      · rintro ⟨r', hr', hm, he⟩
        obtain ⟨r, hr, rfl⟩ := List.mem_map.1 hr'
        exact ⟨r, hr, hm, List.append_cancel_left he⟩
      · rintro ⟨r, hr, hm, he⟩
        exact ⟨_, List.mem_map_of_mem hr, hm, by simp [he]⟩
    have l1 : i < (registerAll (mount pre rs) Trie.empty).2.length := by simpa [registerAll_length, mount] using hi
    have l2 : i < (registerAll rs Trie.empty).2.length := by simpa [registerAll_length] using hi
    rw [List.getElem?_eq_getElem l1, List.getElem?_eq_getElem l2] at hk ⊢
    revert hk
    cases (registerAll (mount pre rs) Trie.empty).2[i] <;> cases (registerAll rs Trie.empty).2[i] <;> simp
  · rw [List.getElem?_eq_none (by simp [registerAll_length, mount]; omega),
      List.getElem?_eq_none (by simp [registerAll_length]; omega)]

theorem after_filter (a : Str) (rs : List (Reg H)) :
    after (.val a) (rs.filter fun r => decide (Under a r.entry)) = after (.val a) rs := by
  induction rs with
  | nil => rfl
  | cons r rs ih =>
    rw [after_cons, ← ih]
    by_cases h : Under a r.entry
    · rw [List.filter_cons_of_pos (by simpa using h), after_cons]
    · rw [List.filter_cons_of_neg (by simpa using h)]
      have : after (.val a) [r] = [] := by
        cases he : r.entry with
        | nil => simp [after, he]
        | cons s e =>
          have : s ≠ .val a := by
            intro hs
            exact h (by simp [Under, he, hs])
          simp [after, he, this]
      rw [this, List.nil_append]

theorem after_of_under {a : Str} {rs : List (Reg H)} {r : Reg H} (hr : r ∈ rs) (hu : Under a r.entry) :
    after (.val a) rs ≠ [] := by
  rw [after_ne_nil]
  refine ⟨r, hr, ?_⟩
  rw [Under] at hu
  cases he : r.entry with
  | nil => simp [he] at hu
  | cons s e =>
    simp only [he, List.head?_cons, Option.some.injEq] at hu
    simp [hu]

/-- **C144.** Services below different first segments have nothing to do with each other: a request below `a` is
answered as if only the services below `a` were there. -/
theorem C144_apart (rs : List (Reg H)) (a : Str) (r : Reg H) (hr : r ∈ rs) (hu : Under a r.entry)
    (m : Method) (path : List Str) :
    (registerAll rs Trie.empty).1.route m (a :: path) =
      (registerAll (rs.filter fun r => decide (Under a r.entry)) Trie.empty).1.route m (a :: path) := by
  have h := after_of_under hr hu
  rw [route_val rs a h, route_val _ a (by rw [after_filter]; exact h), after_filter]

/-- **C144.** And whether a service can be registered below `a` depends on those below `a` only. -/
theorem C144_apart_registered (rs post : List (Reg H)) (a : Str) (r : Reg H) (hu : Under a r.entry) :
    (registerAll (rs ++ r :: post) Trie.empty).2[rs.length]? = some false ↔
      (registerAll ((rs.filter fun r => decide (Under a r.entry)) ++ [r]) Trie.empty).2[
        (rs.filter fun r => decide (Under a r.entry)).length]? = some false := by
  rw [C04_register_fails_iff, C04_register_fails_iff]
  constructor
  · rintro ⟨r', hr', hm, he⟩
    exact ⟨r', List.mem_filter.2 ⟨hr', by simpa [he] using hu⟩, hm, he⟩
  · rintro ⟨r', hr', h⟩
    exact ⟨r', (List.mem_filter.1 hr').1, h⟩

/-- **C144.** For a server: what it makes of a request below `a` does not depend on its other services. -/
theorem C144_server [FloatText] [UrlText] (cfg : ServerCfg) (a : Str) (s : Service) (hs : s ∈ cfg.services)
    (hu : Under a s.entry) (h : ReqHead)
    (ha : ∀ t segs, parseTarget cfg.oracle h.target = some t → t.segs = some segs → segs.head? = some a) (x : Verdict) :
    Judged { cfg with services := cfg.services.filter fun s => decide (Under a s.entry) } h x ↔ Judged cfg h x := by
  have hd : ∀ t segs, parseTarget cfg.oracle h.target = some t → t.segs = some segs →
      dispatch h.method segs (table { cfg with services := cfg.services.filter fun s => decide (Under a s.entry) }) =
        dispatch h.method segs (table cfg) := by
    intro t segs h1 h2
    have h3 := ha t segs h1 h2
    cases segs with
    | nil => cases h3
    | cons b segs =>
      cases h3
      have := C144_apart (cfg.services.map Service.reg) a s.reg (List.mem_map_of_mem hs) hu h.method segs
      rw [C02_exact_dispatch, C02_exact_dispatch, List.filter_map] at this
      exact this.symm
  constructor
  · intro hj
    cases hj with
    | noUrl h1 => exact .noUrl h1
    | noPath h1 h2 h3 => rw [hd _ _ h1 h2] at h3; exact .noPath h1 h2 h3
    | noMethod h1 h2 h3 => rw [hd _ _ h1 h2] at h3; exact .noMethod h1 h2 h3
    | undecodable h1 h2 h3 h4 => rw [hd _ _ h1 h2] at h3; exact .undecodable h1 h2 h3 h4
    | call h1 h2 h3 h4 => rw [hd _ _ h1 h2] at h3; exact .call h1 h2 h3 h4
  · intro hj
    cases hj with
    | noUrl h1 => exact .noUrl h1
    | noPath h1 h2 h3 => rw [← hd _ _ h1 h2] at h3; exact .noPath h1 h2 h3
    | noMethod h1 h2 h3 => rw [← hd _ _ h1 h2] at h3; exact .noMethod h1 h2 h3
    | undecodable h1 h2 h3 h4 => rw [← hd _ _ h1 h2] at h3; exact .undecodable h1 h2 h3 h4
    | call h1 h2 h3 h4 => rw [← hd _ _ h1 h2] at h3; exact .call h1 h2 h3 h4

/-- **C144.** On a connection on which all requests are below `a`, a server with all services and one with those below
`a` only do the same, whatever is sent and however it arrives. -/
theorem C144_connection [FloatText] [UrlText] [JsonText] [Wire] (cfg : ServerCfg) (a : Str) (s : Service)
    (hs : s ∈ cfg.services) (hu : Under a s.entry) (es : List ConnEvent)
    (ha : ∀ h, .read h ∈ connLog cfg es → ∀ t segs, parseTarget cfg.oracle h.target = some t → t.segs = some segs →
      segs.head? = some a) :
    connLog { cfg with services := cfg.services.filter fun s => decide (Under a s.entry) } es = connLog cfg es := by
  generalize hc' : { cfg with services := cfg.services.filter fun s => decide (Under a s.entry) } = cfg'
  have haccept : ∀ (c : ConnState) (h : ReqHead), (∀ t segs, parseTarget cfg.oracle h.target = some t →
      t.segs = some segs → segs.head? = some a) → ConnState.accept cfg' c h = ConnState.accept cfg c h := by
    intro c h hh
    subst hc'
    simp only [ConnState.accept, parseRelativeUrl]
    cases hp : parseTarget cfg.oracle h.target with
    | none => rfl
    | some t =>
      have : routeUrl (ServerCfg.router { cfg with services := cfg.services.filter fun s => decide (Under a s.entry) })
          h.method t = routeUrl cfg.router h.method t := by
        rw [routeUrl, routeUrl]
        cases hsg : t.segs with
        | none => rfl
        | some segs =>
          have h3 := hh t segs hp hsg
          cases segs with
          | nil => cases h3
          | cons b segs =>
            cases h3
            have := C144_apart (cfg.services.map Service.reg) a s.reg (List.mem_map_of_mem hs) hu h.method segs
            rw [List.filter_map] at this
            simp only [ServerCfg.router, this]
            rfl
      simp only [Res.ofOption, this]
      rfl
  have key : ∀ (es : List ConnEvent) (c : ConnState), (∀ h, .read h ∈ (c.run cfg es).2 →
      ∀ t segs, parseTarget cfg.oracle h.target = some t → t.segs = some segs → segs.head? = some a) →
      c.run cfg' es = c.run cfg es := by
    intro es
    induction es with
    | nil => intro c _; rfl
    | cons e es ih =>
      intro c hh
      have hst : c.step cfg' e = c.step cfg e := by
        cases e with
        | input =>
          cases hph : c.phase with
          | readHead =>
            simp only [ConnState.step, hph, ConnState.pollHead]
            cases hw : Wire.head c.input with
            | done h rest =>
              have : ConnEffect.read h ∈ (c.run cfg (.input :: es)).2 := by
                simp only [ConnState.run, ConnState.step, hph, ConnState.pollHead, hw]
                exact List.mem_cons_self ..
              simp only [haccept _ h (hh h this)]
            | bad => rfl
            | more => rfl
          | _ => simp only [ConnState.step, hph]
        | _ => rfl
      simp only [ConnState.run, hst]
      rw [ih]
      intro h hm
      refine hh h ?_
      simp only [ConnState.run]
      exact List.mem_append_right _ hm
  exact congrArg Prod.snd (key es .new ha)

end

namespace MountExamples

/-- `GET users`, `GET users/_`. -/
def users : List (Reg Nat) := [⟨.other 0, [.val ['u']], 1⟩, ⟨.other 0, [.val ['u'], .var], 2⟩]

/-- `GET _/_`. -/
def pages : List (Reg Nat) := [⟨.other 0, [.var, .var], 3⟩]

/-- `C144_mount`: `v/1/u/7` below `v/1` is `u/7`. -/
example : (registerAll (mount [['v'], ['1']] users) Trie.empty).1.route (.other 0) [['v'], ['1'], ['u'], ['7']] = .ok 2 := by
  have := C144_mount users (by simp [users]) [['v'], ['1']] (.other 0) [['u'], ['7']]
  rw [List.cons_append, List.singleton_append] at this
  rw [this, C02_exact_dispatch]
  rfl

/-- `C144_elsewhere`: on the way and beside it. -/
example : (registerAll (mount [['v'], ['1']] users) Trie.empty).1.route (.other 0) [['v']] = .error .methodNotAllowed ∧
    (registerAll (mount [['v'], ['1']] users) Trie.empty).1.route (.other 0) [['v'], ['2']] = .error .notFound := by
  rw [C144_elsewhere _ (by simp [users]) _ _ _ (by decide), C144_elsewhere _ (by simp [users]) _ _ _ (by decide)]
  exact ⟨rfl, rfl⟩

/-- `C144_apart`: `GET _/_` has nothing to say below `u`. -/
example : (registerAll (pages ++ users) Trie.empty).1.route (.other 0) [['u'], ['7']] =
    (registerAll users Trie.empty).1.route (.other 0) [['u'], ['7']] :=
  C144_apart (pages ++ users) ['u'] ⟨.other 0, [.val ['u']], 1⟩ (by simp [users]) rfl (.other 0) [['7']]

/-- `C144_apart_registered`: a second `GET u` is refused, whatever else there is. -/
example : (registerAll ((pages ++ users) ++ [⟨.other 0, [.val ['u']], 4⟩]) Trie.empty).2[3]? = some false :=
  (C144_apart_registered (pages ++ users) [] ['u'] ⟨.other 0, [.val ['u']], 4⟩ rfl).2 (by decide)

/-- Without a service below `a` the claim is false: then the variable takes the request. -/
example : (registerAll pages Trie.empty).1.route (.other 0) [['a'], ['7']] = .ok 3 ∧
    (registerAll (pages.filter fun r => decide (Under ['a'] r.entry)) Trie.empty).1.route (.other 0) [['a'], ['7']] =
      .error .notFound := by
  rw [C02_exact_dispatch, C02_exact_dispatch]
  exact ⟨rfl, rfl⟩

open ServerExamples ToyJson ToyWire in
/-- `C144_server`: whatever else is registered, `GET /users/7` is judged by the services below `users`. -/
example (more : List Service) : letI := toyFloat; letI := toyUrl
    Judged { exCfg with services := (exService :: more).filter fun s => decide (Under "users".toList s.entry) }
        (exHead (.other 1) "/users/7".toList 1) (.call exService exVal) ↔
      Judged { exCfg with services := exService :: more } (exHead (.other 1) "/users/7".toList 1)
        (.call exService exVal) := by
  let := toyFloat
  let := toyUrl
  refine C144_server { exCfg with services := exService :: more } "users".toList exService (by simp) rfl _ ?_ _
  intro t segs h1 h2
  have h3 : parseTarget exCfg.oracle (exHead (.other 1) "/users/7".toList 1).target =
      some ⟨some ["users".toList, "7".toList], none⟩ := by rfl
  rw [h3] at h1
  cases h1
  cases h2
  rfl

/-- `GET /users/<id>` and `GET /<any>`. -/
def twoCfg : ServerCfg :=
  { ServerExamples.exCfg with services := [ServerExamples.exService, ⟨.other 1, [.var], .struct [], 9⟩] }

open ServerExamples ToyJson ToyWire in
/-- `C144_connection`: a connection on which `GET /users/7` is read. -/
example : letI := toyFloat; letI := toyUrl; letI := toyJson; letI := toyWire
    connLog { twoCfg with services := twoCfg.services.filter fun s => decide (Under "users".toList s.entry) }
        [.connected true, .recv (exBytes 1 "/users/7".toList [9]), .input] =
      connLog twoCfg [.connected true, .recv (exBytes 1 "/users/7".toList [9]), .input] := by
  let := toyFloat
  let := toyUrl
  let := toyJson
  let := toyWire
  have e : ((connLog twoCfg [.connected true, .recv (exBytes 1 "/users/7".toList [9]), .input]).all fun
      | .read h => decide (h.target = "/users/7".toList)
      | _ => true) = true := by decide +kernel
  have h3 : parseTarget twoCfg.oracle "/users/7".toList = some ⟨some ["users".toList, "7".toList], none⟩ := by rfl
  have := C144_connection twoCfg "users".toList exService (by simp [twoCfg]) rfl
    [.connected true, .recv (exBytes 1 "/users/7".toList [9]), .input]
  refine this ?_
  clear this
  generalize connLog twoCfg _ = log at e
  intro h hm t segs h1 h2
  have ht : h.target = "/users/7".toList := of_decide_eq_true (List.all_eq_true.1 e _ hm)
  rw [ht, h3] at h1
  cases h1
  cases h2
  rfl

end MountExamples

end Htrpc
