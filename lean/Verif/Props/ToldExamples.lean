/-
Calls that cannot be told apart on the wire (C113), and examples.
-/
import Verif.Props.HttpExamples
import Verif.Props.Told
import Verif.Props.Transparent

namespace Htrpc
open Spec Http

namespace ToldExamples

/-- A request whose path is one text. -/
def atPath (s : Str) : Val := .struct [("path".toList, .tuple [.str s])]
/-- Its type. -/
def pathTy : Ty := .struct [("path".toList, .tuple [.str])]

theorem atPath_ty (s : Str) : HasTy (atPath s) pathTy := .struct (.cons (.tuple (.cons (.str _) .nil)) .nil)

/-- A request with an empty path and this query. -/
def asking (q : Val) : Val := .struct [("path".toList, .tuple []), ("query".toList, q)]
/-- Its type. -/
def askingTy (t : Ty) : Ty := .struct [("path".toList, .tuple []), ("query".toList, t)]

theorem asking_ty {q : Val} {t : Ty} (h : HasTy q t) : HasTy (asking q) (askingTy t) :=
  .struct (.cons (.tuple .nil) (.cons h .nil))

/-- A struct with one field. -/
def one (v : Val) : Val := .struct [("k".toList, v)]

theorem one_ty {v : Val} {t : Ty} (h : HasTy v t) : HasTy (one v) (.struct [("k".toList, t)]) :=
  .struct (.cons h .nil)

end ToldExamples
open ToldExamples

section
variable [FloatText]

/-- **C113.** What is excluded there is really confused. Different requests of one type are the same on the
wire if they differ only in: tabs and line breaks in the path; `.` and `..` in the path; the variant of an
enum, one with the name of another as its contents; `None` and `Some(None)`; entries of a map without
value. -/
theorem C113_confused (m : Method) (body : Bytes) :
    Confused m [.var] pathTy (atPath "a\tb".toList) (atPath "ab".toList) body ∧
    Confused m [.var] pathTy (atPath ".".toList) (atPath "..".toList) body ∧
    (∀ n k, Confused m [] (askingTy (.struct [("k".toList, .enum [(n, .unit), (k, .newtype .str)])]))
      (asking (one (.unitVariant n))) (asking (one (.newtypeVariant k (.str n)))) body) ∧
    (∀ t, Confused m [] (askingTy (.struct [("k".toList, .option (.option t))]))
      (asking (one .none)) (asking (one (.some .none))) body) ∧
    ∀ s t, Confused m [] (askingTy (.map .str (.option t))) (asking (.map []))
      (asking (.map [(.str s, .none)])) body := by
  refine ⟨⟨by decide, atPath_ty _, atPath_ty _, _, rfl, rfl⟩,
    ⟨by decide, atPath_ty _, atPath_ty _, _, rfl, rfl⟩,
    fun n k => ⟨nofun, asking_ty (one_ty (.unitVariant (by simp))),
      asking_ty (one_ty (.newtypeVariant (t := .str) (by simp) (.str _))), _, rfl, rfl⟩,
    fun t => ⟨nofun, asking_ty (one_ty (.none _)), asking_ty (one_ty (.some (.none _))), _, rfl, rfl⟩,
    fun s t => ⟨nofun, asking_ty (.map (.nil _ _)),
      asking_ty (.map (.cons (.str _) (.none _) (.nil _ _))), _, rfl, rfl⟩⟩

end

namespace ToldExamples

/-- The type of a request with a path of one text, an optional number in the query, and a text in the
header. -/
def exTy : Ty := .struct (requestFields (some (.tuple [.str]))
  (some (.struct [("n".toList, .option (.int .u8))])) (some (.struct [("h".toList, .str)])))

/-- Such a request. -/
def exVal (s : Str) (n : Val) (h : Str) : Val := .struct (requestFields (some (.tuple [.str s]))
  (some (.struct [("n".toList, n)])) (some (.struct [("h".toList, .str h)])))

theorem exTy_told : ToldRequest exTy := by
  refine .struct (by unfold DistinctNames; decide) ?_ ?_ ?_
  · intro t ht; cases ht; exact .tuple (by simpa using ToldText.str)
  · intro t ht; cases ht
    exact .struct (by unfold DistinctNames; decide) (by simpa using ToldField.option (.int _))
  · intro t ht; cases ht
    exact .struct (by unfold DistinctNames; decide) (by simpa using ToldField.told .str)

theorem exVal_ty (s : Str) (n : Val) (hn : HasTy n (.option (.int .u8))) (h : Str) :
    HasTy (exVal s n h) exTy :=
  .struct (.cons (.tuple (.cons (.str _) .nil)) (.cons (.struct (.cons hn .nil))
    (.cons (.struct (.cons (.str _) .nil)) .nil)))

theorem noNaN_str (s : Str) : ¬ HasNaN (.str s) := by
  intro h
  cases h with | here h => cases h

theorem noNaN_struct {fs : List (Str × Val)} (hf : ∀ x ∈ fs, ¬ HasNaN x.2) : ¬ HasNaN (.struct fs) := by
  intro h
  cases h with
  | here h => cases h
  | struct hm h => exact hf _ hm h

theorem noNaN_tuple {vs : List Val} (hf : ∀ x ∈ vs, ¬ HasNaN x) : ¬ HasNaN (.tuple vs) := by
  intro h
  cases h with
  | here h => cases h
  | tuple hm h => exact hf _ hm h

theorem noNaN_none : ¬ HasNaN .none := by
  intro h
  cases h with | here h => cases h

theorem noNaN_num (t : IntTy) (i : Int) : ¬ HasNaN (.some (.int t i)) := by
  intro h
  cases h with
  | here h => cases h with | some h => cases h
  | some h => cases h with | here h => cases h

theorem exVal_noNaN (s : Str) {n : Val} (hn : ¬ HasNaN n) (h : Str) : ¬ HasNaN (exVal s n h) := by
  refine noNaN_struct ?_
  simp only [requestFields, optField, List.cons_append, List.nil_append, List.mem_cons,
    List.not_mem_nil, or_false, forall_eq_or_imp, forall_eq]
  exact ⟨noNaN_tuple (by simpa using noNaN_str _), noNaN_struct (by simpa using hn),
    noNaN_struct (by simpa using noNaN_str _)⟩

theorem exVal_fits [FloatText] {s : Str} (hs : strip s = s) (hd : ¬ Dots s) (n : Val) (h : Str) :
    PathFits [.val "a".toList, .var] (exVal s n h) := by
  intro p vs ss hp ha hss
  generalize he : exVal s n h = v at hp
  cases hp with
  | newtypeStruct => cases he
  | struct hl =>
    cases he
    cases hl
    cases ha
    cases hss with | cons h1 h2 =>
    cases h1
    cases h2
    refine ⟨⟨by simp [instantiate], ?_, .inr ⟨_, rfl, by decide⟩⟩, by simpa using hs⟩
    intro x hx
    simp only [instantiate, List.mem_cons, List.not_mem_nil, or_false] at hx
    rcases hx with rfl | rfl
    · decide
    · exact hd

variable [LawfulFloatText]

/-- `C113_requests`: `None` and 0. -/
theorem ex_told (m : Method) (s h : Str) (hs : strip s = s) (hd : ¬ Dots s) (body body' : Bytes)
    (r r' : Request)
    (hr : serRequest m [.val "a".toList, .var] (exVal s .none h) body = .ok r)
    (hr' : serRequest m [.val "a".toList, .var] (exVal s (.some (.int .u8 0)) h) body' = .ok r') :
    r.target ≠ r'.target ∨ r.headers ≠ r'.headers := by
  by_contra hc
  simp only [not_or, not_not] at hc
  have := C113_requests m m _ exTy exTy_told _ _ (exVal_ty _ _ (.none _) _)
    (exVal_ty _ _ (.some (.int _ _ (by decide))) _) (exVal_noNaN _ noNaN_none _)
    (exVal_noNaN _ (noNaN_num _ _) _) (exVal_fits hs hd _ _) (exVal_fits hs hd _ _) body body' r r' hr hr'
    hc.1 hc.2
  cases this

/-- Such requests are sent. -/
example (m : Method) : (∃ r, serRequest m [.val "a".toList, .var]
      (exVal "x/y".toList .none "1".toList) [] = .ok r ∧ r.target = "/a/x%2Fy?".toList) ∧
    ∃ r, serRequest m [.val "a".toList, .var]
      (exVal "x/y".toList (.some (.int .u8 0)) "1".toList) [] = .ok r ∧
      r.target = "/a/x%2Fy?n=0".toList := ⟨⟨_, rfl, rfl⟩, ⟨_, rfl, rfl⟩⟩

/-- `C113_on_the_wire`: requests with different headers are different bytes, whatever follows. -/
example [MethodNames] (m : Method) (body more more' : Bytes) (r r' : Request)
    (hr : serRequest m [.val "a".toList, .var] (exVal "x".toList .none "1".toList) body = .ok r)
    (hr' : serRequest m [.val "a".toList, .var] (exVal "x".toList .none "2".toList) body = .ok r') :
    writeRequest r ++ more ≠ writeRequest r' ++ more' := by
  intro hw
  have safe : ∀ {h r}, serRequest m [.val "a".toList, .var] (exVal "x".toList .none h) body = .ok r →
      SafeValue (utf8 h) → SafeHeaders r.headers := by
    intro h r hr hs
    have : r.headers = [(utf8 "h".toList, utf8 h)] ++ [contentLength body] := by cases hr; rfl
    rw [this, safe_append]
    intro x hx
    rw [List.mem_singleton.1 hx]
    exact ⟨show SafeName (utf8 "h".toList) from ⟨by decide, by decide⟩, hs⟩
  have digit : ∀ c : Char, utf8 [c] = [UInt8.ofNat c.toNat] → 32 < (UInt8.ofNat c.toNat).toNat →
      (UInt8.ofNat c.toNat).toNat < 127 → SafeValue (utf8 [c]) := by
    intro c hc h1 h2
    rw [hc]
    refine ⟨fun b hb => ?_, fun b hb => ?_⟩
    · rw [List.mem_singleton.1 hb]
      exact .inr (.inl ⟨by omega, by omega⟩)
    · simp only [List.head?_cons, List.getLast?_singleton, Option.some.injEq, or_self] at hb
      subst hb
      exact ⟨fun h => by rw [h] at h1; exact absurd h1 (by decide),
        fun h => by rw [h] at h1; exact absurd h1 (by decide)⟩
  obtain ⟨-, h, -⟩ := C113_on_the_wire m m _ exTy exTy_told _ _ (exVal_ty _ _ (.none _) _)
    (exVal_ty _ _ (.none _) _) (exVal_noNaN _ noNaN_none _) (exVal_noNaN _ noNaN_none _)
    (exVal_fits (by decide) (by unfold Dots; decide) _ _)
    (exVal_fits (by decide) (by unfold Dots; decide) _ _) body body r r' hr hr'
    (safe hr (digit '1' (by decide) (by decide) (by decide)))
    (safe hr' (digit '2' (by decide) (by decide) (by decide))) more more' hw
  cases h

/-! Responses -/

/-- A response: everything is fine, with a tag; or nothing was found. -/
def exRespTy : Ty := .enum [("Ok".toList, .struct [("header".toList, .struct [("tag".toList, .str)])]),
  ("NotFound".toList, .unit)]

omit [LawfulFloatText] in
theorem exRespTy_told : ToldResponse exRespTy := by
  refine .enum (by unfold DistinctNames; decide) ?_
  intro x hx
  simp only [List.mem_cons, List.not_mem_nil, or_false] at hx
  rcases hx with rfl | rfl
  · refine .inr ⟨_, rfl, by unfold DistinctNames; decide, ?_⟩
    intro t ht
    cases ht
    exact .struct (by unfold DistinctNames; decide) (by simpa using ToldField.told .str)
  · exact .inl rfl

/-- The first of them. -/
def exOk (s : Str) : Val := .structVariant "Ok".toList
  [("header".toList, .struct [("tag".toList, .str s)])]

omit [LawfulFloatText] in
theorem exOk_ty (s : Str) : HasTy (exOk s) exRespTy :=
  .structVariant (ts := [("header".toList, .struct [("tag".toList, .str)])]) (by simp)
    (.cons (.struct (.cons (.str _) .nil)) .nil)

omit [LawfulFloatText] in
theorem exOk_noNaN (s : Str) : ¬ HasNaN (exOk s) := by
  intro h
  unfold exOk at h
  generalize hv : Val.structVariant _ _ = v at h
  cases h with
  | here h => subst hv; cases h
  | structVariant hm h =>
    cases hv
    have := (Prod.mk.inj (List.mem_singleton.1 hm)).2
    subst this
    exact noNaN_struct (by simpa using noNaN_str _) h
  | _ => cases hv

/-- `C113_responses`: two tags. -/
example (s s' : Str) (h : s ≠ s') (body : Bytes) : ∃ r r', serResponse (exOk s) body = .ok r ∧
    serResponse (exOk s') body = .ok r' ∧ r.headers ≠ r'.headers := by
  refine ⟨_, _, rfl, rfl, fun hc => h ?_⟩
  have := C113_responses exRespTy exRespTy_told _ _ (exOk_ty s) (exOk_ty s') (exOk_noNaN s) (exOk_noNaN s')
    body body _ _ rfl rfl rfl hc
  unfold exOk at this
  simpa using this

end ToldExamples
end Htrpc
