/-
C121: responses that are too large for the client, whatever its limits are.
-/
import Verif.Model.Limits
import Verif.Props.CalleeExamples

namespace Htrpc
open Spec Http

/-- Where the head of a response ends. -/
theorem response_head {m : Method} {c : Nat} {hs : List Header} {b text : Bytes}
    (h : ResponseText m c hs b text) :
    ∃ l hb, StatusLine c l ∧ HeaderText hs hb ∧ text = l ++ [13, 10] ++ hb ++ [13, 10] ++ b := by
  cases h with
  | head _ h2 h3 => exact ⟨_, _, h2, h3, by simp⟩
  | full _ h2 h3 _ => exact ⟨_, _, h2, h3, rfl⟩

/-- A head that is complete is heard of if it fits. -/
theorem hearWithin_response {size count : Nat} {m : Method} {c : Nat} {hs : List Header} {b text : Bytes}
    (h : ResponseText m c hs b text) (more : Bytes) : hearWithin size count m (text ++ more) =
      if text.length ≤ size + b.length ∧ hs.length ≤ count then hear m (text ++ more) else [.failed] := by
  obtain ⟨l, hb, h1, h2, rfl⟩ := response_head h
  have hr := readResponseHead_text h1 h2 (b ++ more)
  rw [← List.append_assoc] at hr
  rw [hearWithin, hr]
  refine if_congr (and_congr_left' ?_) rfl rfl
  simp only [List.length_append]
  omega

section
variable [FloatText]

theorem failed_run {p : Proc} {v : Val} {body : Bytes} {r : Request}
    (hreq : serRequest p.method p.entry v body = .ok r) {rs : List IoResult}
    (hrs : rs.filter Happened = [.connected, .written, .failed]) :
    (callRun p (.new v body) rs).2 = .failed .other := by
  rw [callRun_skip, hrs]
  simp [callRun, callStep, CallInner.new, hreq]

/-- **C121.** Whatever limits the client has: a response whose status line and headers exceed them makes
the call fail with `Other`, whatever follows. -/
theorem C121_too_large (size count : Nat) (p : Proc) (v : Val) (body : Bytes) (r : Request)
    (hreq : serRequest p.method p.entry v body = .ok r) (c : Nat) (hs : List Header)
    (b text more : Bytes) (ht : ResponseText p.method c hs b text)
    (hl : ¬ (text.length ≤ size + b.length ∧ hs.length ≤ count)) (rs : List IoResult)
    (hrs : rs.filter Happened =
      .connected :: .written :: hearWithin size count p.method (text ++ more)) :
    (callRun p (.new v body) rs).2 = .failed .other := by
  rw [hearWithin_response ht, if_neg hl] at hrs
  exact failed_run hreq hrs

/-- **C121.** So does whatever else a server sends that fills the buffer before a head is complete. -/
theorem C121_fills (size count : Nat) (p : Proc) (v : Val) (body : Bytes) (r : Request)
    (hreq : serRequest p.method p.entry v body = .ok r) (bytes : Bytes) (hl : size ≤ bytes.length)
    (hno : ∀ c hs l hb, StatusLine c l → HeaderText hs hb → ¬ l ++ [13, 10] ++ hb ++ [13, 10] <+: bytes)
    (rs : List IoResult)
    (hrs : rs.filter Happened = .connected :: .written :: hearWithin size count p.method bytes) :
    (callRun p (.new v body) rs).2 = .failed .other := by
  refine failed_run hreq (hrs.trans ?_)
  rw [hearWithin]
  cases hr : readResponseHead bytes with
  | more => simp only [if_pos hl]
  | bad => rfl
  | done x rest =>
    obtain ⟨l, hb, h1, h2, rfl⟩ := readResponseHead_only (c := x.1) (hs := x.2) hr
    exact absurd (List.prefix_append _ _) (hno _ _ _ _ h1 h2)

/-- **C121.** Before a response that fits is complete the call waits. -/
theorem C121_waits (size count : Nat) (p : Proc) (v : Val) (body : Bytes) (r : Request)
    (hreq : serRequest p.method p.entry v body = .ok r) (c : Nat) (hs : List Header)
    (b bytes more : Bytes) (ht : ResponseText p.method c hs b (bytes ++ more)) (hm : more ≠ [])
    (hl : (bytes ++ more).length ≤ size + b.length ∧ hs.length ≤ count) (rs : List IoResult)
    (hrs : rs.filter Happened = .connected :: .written :: hearWithin size count p.method bytes) :
    ∃ st, (callRun p (.new v body) rs).2 = .pending st := by
  refine C93_waits p v body r hreq c hs b bytes more ht hm rs (hrs.trans ?_)
  obtain ⟨l, hb, h1, h2, he⟩ := response_head ht
  have hfull := readResponseHead_text h1 h2 b
  rw [← he] at hfull
  rw [hearWithin]
  cases hr : readResponseHead bytes with
  | bad =>
    rcases hear_prefix ht hm with h | ⟨-, h⟩ <;>
    · rw [hear, hr] at h
      cases h
  | more =>
    have hlt : ¬ size ≤ bytes.length := by
      intro hge
      have hpre : l ++ [13, 10] ++ hb ++ [13, 10] <+: bytes := by
        refine List.prefix_of_prefix_length_le (l₃ := bytes ++ more) ?_ (List.prefix_append _ _) ?_
        · rw [he]; exact List.prefix_append _ _
        · rw [he] at hl
          simp only [List.length_append] at hl ⊢
          omega
      obtain ⟨x, rfl⟩ := hpre
      rw [readResponseHead_text h1 h2 x] at hr
      cases hr
    simp only [if_neg hlt, hear, hr]
  | done x rest =>
    obtain ⟨l', hb', h1', h2', rfl⟩ := readResponseHead_only (c := x.1) (hs := x.2) hr
    have := readResponseHead_text h1' h2' (rest ++ more)
    rw [← List.append_assoc, hfull] at this
    injection this with e1 e2
    subst e2
    have e3 : x.2 = hs := (congrArg Prod.snd e1).symm
    refine congrArg (IoResult.connected :: IoResult.written :: ·) (if_pos ?_)
    rw [e3]
    simp only [List.length_append] at hl ⊢
    omega

end

section
variable [LawfulFloatText]

/-- **C121.** A response that fits is read as without limits (C93): the call completes with the value which
its declared type gives to the status and the headers, and with the body, however long that is. -/
theorem C121_fits (size count : Nat) (p : Proc) (hp : WellNamed p.resTy) (v : Val) (body : Bytes)
    (r : Request) (hreq : serRequest p.method p.entry v body = .ok r) (c : Nat) (hs : List Header)
    (b text more : Bytes) (ht : ResponseText p.method c hs b text)
    (hl : text.length ≤ size + b.length ∧ hs.length ≤ count) (rs : List IoResult)
    (hrs : rs.filter Happened =
      .connected :: .written :: hearWithin size count p.method (text ++ more)) :
    (∃ w, (callRun p (.new v body) rs).2 = .ready w b ∧ ReadsResponse c hs true p.resTy w) ∨
    ((callRun p (.new v body) rs).2 = .failed .invalid ∧
      ∀ w, ¬ ReadsResponse c hs true p.resTy w) := by
  rw [hearWithin_response ht, if_pos hl] at hrs
  exact C93_completes p hp v body r hreq c hs b text more ht rs hrs

/-- **C121.** And a call completes only with a response that fits. -/
theorem C121_completed (size count : Nat) (p : Proc) (hp : WellNamed p.resTy) (v : Val) (body : Bytes)
    (bytes : Bytes) (rs : List IoResult)
    (hrs : rs.filter Happened = .connected :: .written :: hearWithin size count p.method bytes) (w : Val)
    (b : Bytes) (h : (callRun p (.new v body) rs).2 = .ready w b) :
    ∃ c hs text rest, bytes = text ++ rest ∧ ResponseText p.method c hs b text ∧
      (text.length ≤ size + b.length ∧ hs.length ≤ count) ∧ ReadsResponse c hs true p.resTy w := by
  have hreq : ∃ r, serRequest p.method p.entry v body = .ok r := by
    obtain ⟨r, _, _, h1, -⟩ := C55_ready p v body rs w b h
    exact ⟨r, h1⟩
  obtain ⟨r, hreq⟩ := hreq
  have key : hearWithin size count p.method bytes = hear p.method bytes := by
    rw [hearWithin] at hrs ⊢
    cases hr : readResponseHead bytes with
    | more =>
      rw [hr] at hrs
      by_cases hl : size ≤ bytes.length
      · simp only [if_pos hl] at hrs
        rw [failed_run hreq hrs] at h
        cases h
      · simp only [if_neg hl, hear, hr]
    | bad => simp only [hear, hr]
    | done x rest =>
      rw [hr] at hrs
      by_cases hl : bytes.length - rest.length ≤ size ∧ x.2.length ≤ count
      · exact if_pos hl
      · have := hrs.trans (congrArg (IoResult.connected :: IoResult.written :: ·) (if_neg hl))
        rw [failed_run hreq this] at h
        cases h
  obtain ⟨c, hs, text, rest, rfl, h2, h3⟩ :=
    C93_completed p hp v body bytes rs (key ▸ hrs) w b h
  refine ⟨c, hs, text, rest, rfl, h2, ?_, h3⟩
  by_contra hl
  rw [C121_too_large size count p v body r hreq c hs b text rest h2 hl rs hrs] at h
  cases h

end

/-! ### Examples -/

namespace LimitsResponseExamples
open CalleeExamples

attribute [local instance] toyFloat

/-- `C121_fits`, `C121_too_large`: the response of `CalleeExamples`, with two headers, is read by a client with
room for two headers, and makes the call fail if there is room for one only, or only for 40 bytes. -/
example (rs1 rs2 rs3 : List IoResult) (more : Bytes)
    (h1 : rs1.filter Happened = .connected :: .written :: hearWithin 100 2 exProc.method (exText ++ more))
    (h2 : rs2.filter Happened = .connected :: .written :: hearWithin 100 1 exProc.method (exText ++ more))
    (h3 : rs3.filter Happened = .connected :: .written :: hearWithin 40 2 exProc.method (exText ++ more)) :
    (∃ w, (callRun exProc (.new exCallArgs [1]) rs1).2 = .ready w (utf8 "hi".toList)) ∧
      (callRun exProc (.new exCallArgs [1]) rs2).2 = .failed .other ∧
      (callRun exProc (.new exCallArgs [1]) rs3).2 = .failed .other := by
  obtain ⟨r, hr⟩ := exCall_sent [1]
  refine ⟨?_, C121_too_large 100 1 exProc exCallArgs [1] r hr 404 exHeaders _ exText more ex_response
    (by decide +kernel) rs2 h2, C121_too_large 40 2 exProc exCallArgs [1] r hr 404 exHeaders _ exText more
    ex_response (by decide +kernel) rs3 h3⟩
  rcases C121_fits 100 2 exProc (by simp [exProc, WellNamed, WellNamedVariants, WellNamedVariant])
    exCallArgs [1] r hr 404 exHeaders _ exText more ex_response (by decide +kernel) rs1 h1 with
    ⟨w, k, -⟩ | ⟨-, k⟩
  · exact ⟨w, k⟩
  · exact absurd (.unit (by decide) rfl) (k (.unitVariant "NotFound".toList))

/-- `C121_fills`: eight bytes that are no head. -/
example (rs : List IoResult)
    (h : rs.filter Happened = .connected :: .written :: hearWithin 8 1 exProc.method (utf8 "HTTP/1.1".toList)) :
    (callRun exProc (.new exCallArgs [1]) rs).2 = .failed .other := by
  obtain ⟨r, hr⟩ := exCall_sent [1]
  refine C121_fills 8 1 exProc exCallArgs [1] r hr _ (by decide +kernel) ?_ rs h
  intro c hs l hb _ _ hp
  have : (13 : UInt8) ∈ utf8 "HTTP/1.1".toList := hp.subset (by simp)
  revert this
  decide +kernel

end LimitsResponseExamples

end Htrpc
