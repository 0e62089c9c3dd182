/-
C140: servers with the same table cannot be told apart.
-/
import Verif.Props.Server
import Verif.Props.Routing

namespace Htrpc
open Spec

section
variable [FloatText] [UrlText] [JsonText] [Wire]

/-- A server uses its services through its table only. -/
theorem step_congr {cfg cfg' : ServerCfg} (ho : cfg'.oracle = cfg.oracle) (hp : cfg'.phrase = cfg.phrase)
    (he : cfg'.explain = cfg.explain) (hr : ∀ m path, cfg'.router.route m path = cfg.router.route m path)
    (c : ConnState) (e : ConnEvent) : c.step cfg' e = c.step cfg e := by
  have hroute : ∀ m t, routeUrl cfg'.router m t = routeUrl cfg.router m t := by
    intro m t
    rw [routeUrl, routeUrl]
    split
    · rfl
    · rw [hr]
  have hbad : ∀ h, ConnState.badRequest cfg' h = ConnState.badRequest cfg h := by
    intro h
    rw [ConnState.badRequest, ConnState.badRequest, he]
  have hhandle : ∀ c h s t, ConnState.handle cfg' c h s t = ConnState.handle cfg c h s t := by
    intro c h s t
    rw [ConnState.handle, ConnState.handle, hbad]
  have haccept : ∀ c h, ConnState.accept cfg' c h = ConnState.accept cfg c h := by
    intro c h
    simp only [ConnState.accept, ho, hp, hbad, hroute, hhandle]
  cases e with
  | input => simp only [ConnState.step, ConnState.pollHead, haccept]
  | _ => rfl

theorem run_congr {cfg cfg' : ServerCfg} (ho : cfg'.oracle = cfg.oracle) (hp : cfg'.phrase = cfg.phrase)
    (he : cfg'.explain = cfg.explain) (hr : ∀ m path, cfg'.router.route m path = cfg.router.route m path)
    (s : ServerState) (es : List ServerEvent) : s.run cfg' es = s.run cfg es := by
  induction es generalizing s with
  | nil => rfl
  | cons e es ih =>
    have hs : s.step cfg' e = s.step cfg e := by
      cases e with
      | conn i e => simp only [ServerState.step, step_congr ho hp he hr]
      | _ => rfl
    simp only [ServerState.run, hs, ih]

/-- **C140.** The order in which services are registered cannot be observed: if all registrations succeed, then in
any other order they succeed too, and on every input of every connection the server does the same. -/
theorem C140_order (cfg cfg' : ServerCfg) (ho : cfg'.oracle = cfg.oracle) (hp : cfg'.phrase = cfg.phrase)
    (he : cfg'.explain = cfg.explain) (hperm : cfg.services.Perm cfg'.services)
    (hok : ∀ b ∈ (registerAll (cfg.services.map Service.reg) Trie.empty).2, b = true) :
    (∀ b ∈ (registerAll (cfg'.services.map Service.reg) Trie.empty).2, b = true) ∧
      ∀ es, ServerState.run cfg' .new es = ServerState.run cfg .new es := by
  obtain ⟨h1, h2⟩ := C03_order_irrelevant _ _ (hperm.map Service.reg) hok
  exact ⟨h1, fun es => run_congr ho hp he (fun m path => (h2 m path).symm) _ es⟩

/-- **C140.** Nor can a registration that failed: the server does what it would do if it had not been tried. -/
theorem C140_failed (cfg cfg' : ServerCfg) (ho : cfg'.oracle = cfg.oracle) (hp : cfg'.phrase = cfg.phrase)
    (he : cfg'.explain = cfg.explain) (pre post : List Service) (s : Service) (h : cfg.services = pre ++ s :: post)
    (h' : cfg'.services = pre ++ post) (hf : ∃ r ∈ pre, r.method = s.method ∧ r.entry = s.entry) (es : List ServerEvent) :
    ServerState.run cfg' .new es = ServerState.run cfg .new es := by
  refine run_congr ho hp he (fun m path => ?_) _ es
  rw [ServerCfg.router, ServerCfg.router, h, h', List.map_append, List.map_append, List.map_cons]
  refine (C04_failed_register_no_effect _ _ _ ?_ m path).symm
  refine (C04_register_fails_iff _ _ _).2 ?_
  obtain ⟨r, hr, e⟩ := hf
  exact ⟨r.reg, List.mem_map_of_mem hr, e⟩

end

namespace SameTableExamples
variable [FloatText] [UrlText] [JsonText] [Wire]

/-- `GET /users/<id>`. -/
def user : Service := ⟨.other 1, [.val "users".toList, .var], .struct [("path".toList, .tuple [.int .u8])], 5⟩

/-- `GET /users`. -/
def users : Service := ⟨.other 1, [.val "users".toList], .struct [], 6⟩

/-- `GET /users/<name>`: this collides with `user`. -/
def named : Service := ⟨.other 1, [.val "users".toList, .var], .struct [("path".toList, .tuple [.str])], 7⟩

def cfg (l : List Service) : ServerCfg := ⟨l, ⟨fun _ => none⟩, fun _ => "reason".toList, fun _ => ([], none, none)⟩

/-- Two services in both orders. -/
example (es : List ServerEvent) :
    ServerState.run (cfg [users, user]) .new es = ServerState.run (cfg [user, users]) .new es :=
  (C140_order (cfg [user, users]) (cfg [users, user]) rfl rfl rfl (List.Perm.swap _ _ _) (by decide)).2 es

/-- A third one that is refused. -/
example (es : List ServerEvent) :
    ServerState.run (cfg [user, users]) .new es = ServerState.run (cfg [user, named, users]) .new es :=
  C140_failed (cfg [user, named, users]) (cfg [user, users]) rfl rfl rfl [user] [users] named rfl rfl
    ⟨user, List.mem_singleton.2 rfl, rfl, rfl⟩ es

omit [FloatText] [UrlText] [JsonText] [Wire] in
/-- All registrations have to succeed: of two that collide, the first one is called. -/
example : (cfg [user, named]).router.route (.other 1) ["users".toList, "7".toList] = .ok user ∧
    (cfg [named, user]).router.route (.other 1) ["users".toList, "7".toList] = .ok named := ⟨rfl, rfl⟩

end SameTableExamples

end Htrpc
