/-
C138: the life of a server.
-/
import Verif.Props.Server
import Verif.Spec.ServerLife

namespace Htrpc
open Spec

section
variable [FloatText] [UrlText] [JsonText] [Wire]

/-- After its end nothing is to be seen of the server itself. -/
theorem life_over (cfg : ServerCfg) (es : List ServerEvent) (s : ServerState) (k : Kind) (h : s.phase = .failed k) :
    (s.run cfg es).2.filter ofServer = [] ∧ (s.run cfg es).1.phase = .failed k ∧
      (s.run cfg es).1.conns.length = s.conns.length := by
  induction es generalizing s with
  | nil => exact ⟨rfl, h, rfl⟩
  | cons e es ih =>
    have h1 : (s.step cfg e).2.filter ofServer = [] ∧ (s.step cfg e).1.phase = .failed k ∧
        (s.step cfg e).1.conns.length = s.conns.length := by
      cases e with
      | conn i e =>
        rw [ServerState.step]
        split
        · exact ⟨rfl, h, rfl⟩
        · refine ⟨?_, h, by simp⟩
          simp [ofServer]
      | _ => simp [ServerState.step, h]
    obtain ⟨h2, h3, h4⟩ := ih _ h1.2.1
    refine ⟨?_, h3, h4.trans h1.2.2⟩
    show ((s.step cfg e).2 ++ ((s.step cfg e).1.run cfg es).2).filter ofServer = []
    rw [List.filter_append, h1.1, h2]
    rfl

/-- While the listener works. -/
theorem life_listening (cfg : ServerCfg) (es : List ServerEvent) (s : ServerState) (h : s.phase = .listening) :
    (s.run cfg es).2.filter ofServer =
      (List.range' s.conns.length ((es.takeWhile fun e => !listenerStops e).countP isClient)).map .spawned ++
        (match es.dropWhile fun e => !listenerStops e with
        | [] => []
        | .listenEnded :: _ => [.failed .invalid]
        | _ => [.failed .other]) ∧
    (s.run cfg es).1.conns.length =
      s.conns.length + (es.takeWhile fun e => !listenerStops e).countP isClient := by
  induction es generalizing s with
  | nil => exact ⟨rfl, rfl⟩
  | cons e es ih =>
    have hrun : ∀ p : ServerState × List ServerEffect, (s.step cfg e) = p →
        (s.run cfg (e :: es)).2 = p.2 ++ (p.1.run cfg es).2 ∧ (s.run cfg (e :: es)).1 = (p.1.run cfg es).1 := by
      rintro p rfl; exact ⟨rfl, rfl⟩
    cases e with
    | bound ok =>
      obtain ⟨h1, h2⟩ := hrun (s, []) (by simp [ServerState.step, h])
      rw [h1, h2]
      exact ih s h
    | client =>
      obtain ⟨h1, h2⟩ := hrun ({ s with conns := s.conns ++ [.new] }, [.spawned s.conns.length])
        (by simp [ServerState.step, h])
      obtain ⟨h3, h4⟩ := ih { s with conns := s.conns ++ [.new] } h
      rw [h1, h2, List.filter_append, h3, h4]
      simp only [List.takeWhile_cons, List.dropWhile_cons, listenerStops, Bool.not_false, if_true, List.countP_cons,
        isClient, List.length_append, List.length_singleton, List.range'_succ, List.map_cons]
      exact ⟨rfl, by omega⟩
    | listenFailed =>
      obtain ⟨h1, h2⟩ := hrun ({ s with phase := .failed .other }, [.failed .other]) (by simp [ServerState.step, h])
      obtain ⟨h3, -, h4⟩ := life_over cfg es { s with phase := .failed .other } _ rfl
      rw [h1, h2, List.filter_append, h3, h4]
      exact ⟨rfl, rfl⟩
    | listenEnded =>
      obtain ⟨h1, h2⟩ := hrun ({ s with phase := .failed .invalid }, [.failed .invalid]) (by simp [ServerState.step, h])
      obtain ⟨h3, -, h4⟩ := life_over cfg es { s with phase := .failed .invalid } _ rfl
      rw [h1, h2, List.filter_append, h3, h4]
      exact ⟨rfl, rfl⟩
    | conn i e =>
      have h5 : ((s.step cfg (.conn i e)).2.filter ofServer = []) ∧ (s.step cfg (.conn i e)).1.phase = .listening ∧
          (s.step cfg (.conn i e)).1.conns.length = s.conns.length := by
        rw [ServerState.step]
        split
        · exact ⟨rfl, h, rfl⟩
        · exact ⟨by simp [ofServer], h, by simp⟩
      obtain ⟨h1, h2⟩ := hrun _ rfl
      obtain ⟨h3, h4⟩ := ih _ h5.2.1
      rw [h1, h2, List.filter_append, h5.1, h3, h4, h5.2.2]
      exact ⟨rfl, rfl⟩

/-- Until the address is bound. -/
theorem life_binding (cfg : ServerCfg) (es : List ServerEvent) :
    (ServerState.run cfg .new es).2.filter ofServer = serverLife es ∧
    spawned (serverLife es) = List.range (ServerState.run cfg .new es).1.conns.length := by
  induction es with
  | nil => exact ⟨rfl, rfl⟩
  | cons e es ih =>
    have hrun : ∀ p : ServerState × List ServerEffect, (ServerState.new.step cfg e) = p →
        (ServerState.run cfg .new (e :: es)).2 = p.2 ++ (p.1.run cfg es).2 ∧
        (ServerState.run cfg .new (e :: es)).1 = (p.1.run cfg es).1 := by
      rintro p rfl; exact ⟨rfl, rfl⟩
    cases e with
    | bound ok =>
      cases ok with
      | false =>
        obtain ⟨h1, h2⟩ := hrun (⟨.failed .other, []⟩, [.failed .other]) rfl
        obtain ⟨h3, -, h4⟩ := life_over cfg es ⟨.failed .other, []⟩ _ rfl
        rw [h1, h2, List.filter_append, h3, h4]
        exact ⟨rfl, rfl⟩
      | true =>
        obtain ⟨h1, h2⟩ := hrun (⟨.listening, []⟩, [.started]) rfl
        obtain ⟨h3, h4⟩ := life_listening cfg es ⟨.listening, []⟩ rfl
        rw [h1, h2, List.filter_append, h3, h4]
        have hs : serverLife (.bound true :: es) =
          .started :: ((List.range ((es.takeWhile fun e => !listenerStops e).countP isClient)).map .spawned ++
            match es.dropWhile fun e => !listenerStops e with
            | [] => []
            | .listenEnded :: _ => [.failed .invalid]
            | _ => [.failed .other]) := rfl
        rw [hs, List.range_eq_range']
        refine ⟨rfl, ?_⟩
        have h5 : ∀ l : List ServerEffect, (∀ i, .spawned i ∉ l) → spawned l = [] := by
          intro l hl
          rw [spawned, List.filterMap_eq_nil_iff]
          intro e he
          cases e with
          | spawned i => exact absurd he (hl i)
          | _ => rfl
        have h6 : ∀ l : List Nat, spawned (l.map .spawned) = l := by
          intro l
          rw [spawned, List.filterMap_map]
          exact List.filterMap_some
        rw [spawned, List.filterMap_cons_none rfl, List.filterMap_append, ← spawned, ← spawned, h6, h5]
        · simp [List.range_eq_range']
        · intro i
          split <;> simp
    | client => exact ih
    | listenFailed => exact ih
    | listenEnded => exact ih
    | conn i e => exact ih

/-- **C138.** Whatever happens, the server itself does this and nothing else: it waits until its address is bound; if
this fails, it fails with kind Other; otherwise it starts, gives each client a connection until its listener stops,
and then fails, with kind Invalid if the listener ended and with kind Other if it failed. It never ends
without an error, never starts twice, and fails at most once. -/
theorem C138_life (cfg : ServerCfg) (es : List ServerEvent) :
    (ServerState.run cfg .new es).2.filter ofServer = serverLife es := (life_binding cfg es).1

/-- **C138.** The connections are those of the clients that were accepted, in their order. -/
theorem C138_connections (cfg : ServerCfg) (es : List ServerEvent) :
    spawned (ServerState.run cfg .new es).2 = List.range (ServerState.run cfg .new es).1.conns.length := by
  rw [← (life_binding cfg es).2, ← (life_binding cfg es).1]
  rw [spawned, spawned, List.filterMap_filter]
  congr 1
  funext e
  cases e <;> rfl

end

namespace ServerLifeExamples
variable [FloatText] [UrlText] [JsonText] [Wire]

/-- A server that accepts two clients before its listener fails; a third one is not accepted. -/
example (cfg : ServerCfg) : (ServerState.run cfg .new
      [.client, .bound true, .client, .bound false, .conn 0 (.connected false), .client, .listenFailed, .client,
        .listenEnded]).2.filter ofServer =
    [.started, .spawned 0, .spawned 1, .failed .other] := C138_life cfg _

/-- An address that cannot be bound. -/
example (cfg : ServerCfg) : (ServerState.run cfg .new [.bound false, .bound true, .client]).2.filter ofServer =
    [.failed .other] := C138_life cfg _

/-- A listener that ends. -/
example (cfg : ServerCfg) : (ServerState.run cfg .new [.bound true, .listenEnded, .client]).2.filter ofServer =
    [.started, .failed .invalid] := C138_life cfg _

end ServerLifeExamples

end Htrpc
