import Verif.Lemmas.PathCodec
import Verif.Lemmas.Res
import Verif.Lemmas.Struct
import Verif.Spec.Request

namespace Htrpc
open Spec

section
variable [FloatText]

/-! ### The part serializers never panic -/

namespace PathSer

omit [FloatText] in
theorem bindNextVar_sat (st : PathSer) (s : Str) : (bindNextVar st s).Sat fun _ => True := by
  rw [bindNextVar]
  refine Res.sat_check.bind fun _ _ => ?_
  rcases appendUntilNextVar st.path st.rest with ⟨p, r, b⟩
  cases b <;> simp

omit [FloatText] in
theorem finish_sat (st : PathSer) : (finish st).Sat fun _ => True := by
  rw [finish]
  refine Res.sat_check.bind fun _ _ => ?_
  rcases appendUntilNextVar st.path st.rest with ⟨p, r, b⟩
  cases b <;> simp

omit [FloatText] in
theorem start_sat (st : PathSer) (n : Nat) : (start st n).Sat fun _ => True := by
  rw [start]
  exact Res.sat_check.bind fun _ _ => Res.sat_check.bind fun _ _ => trivial

mutual
theorem ser_sat : ∀ (v : Val) (st : PathSer), (ser v st).Sat fun _ => True
  | .bool _, st => by rw [ser]; exact bindNextVar_sat ..
  | .int _ _, st => by rw [ser]; exact bindNextVar_sat ..
  | .f32 _, st => by rw [ser]; exact bindNextVar_sat ..
  | .f64 _, st => by rw [ser]; exact bindNextVar_sat ..
  | .char _, st => by rw [ser]; exact bindNextVar_sat ..
  | .str _, st => by rw [ser]; exact bindNextVar_sat ..
  | .bytes _, st => by rw [ser]; rfl
  | .none, st => by rw [ser]; rfl
  | .some _, st => by rw [ser]; rfl
  | .unit, st => by rw [ser]; exact (start_sat ..).bind fun _ _ => finish_sat _
  | .unitStruct _, st => by rw [ser]; exact (start_sat ..).bind fun _ _ => finish_sat _
  | .unitVariant _, st => by rw [ser]; exact bindNextVar_sat ..
  | .newtypeStruct v, st => by rw [ser]; exact ser_sat v st
  | .newtypeVariant _ v, st => by rw [ser]; exact ser_sat v st
  | .seq _, st => by rw [ser]; rfl
  | .tuple vs, st => by
    rw [ser]
    exact (start_sat ..).bind fun _ _ => (serAll_sat vs _).bind fun _ _ => finish_sat _
  | .tupleStruct vs, st => by
    rw [ser]
    exact (start_sat ..).bind fun _ _ => (serAll_sat vs _).bind fun _ _ => finish_sat _
  | .tupleVariant _ vs, st => by
    rw [ser]
    exact (start_sat ..).bind fun _ _ => (serAll_sat vs _).bind fun _ _ => finish_sat _
  | .map _, st => by rw [ser]; rfl
  | .struct _, st => by rw [ser]; rfl
  | .structVariant _ _, st => by rw [ser]; rfl
theorem serAll_sat : ∀ (vs : List Val) (st : PathSer), (serAll vs st).Sat fun _ => True
  | [], st => by rw [serAll]; trivial
  | v :: vs, st => by rw [serAll]; exact (ser_sat v st).bind fun _ _ => serAll_sat vs _
end

end PathSer

theorem serPath_sat (e : EntryPoint) (p : Str) (v : Val) : (serPath e p v).Sat fun _ => True :=
  (PathSer.ser_sat v _).bind fun _ _ => trivial

namespace QuerySer

omit [FloatText] in
theorem enter_sat (st : QuerySer) : st.enter.Sat fun _ => True :=
  Res.sat_check.bind fun _ _ => trivial

mutual
theorem ser_sat : ∀ (v : Val) (st : QuerySer), (ser v st).Sat fun _ => True
  | .bool _, st => by rw [ser]; trivial
  | .int _ _, st => by rw [ser]; trivial
  | .f32 _, st => by rw [ser]; trivial
  | .f64 _, st => by rw [ser]; trivial
  | .char _, st => by rw [ser]; trivial
  | .str _, st => by rw [ser]; trivial
  | .bytes _, st => by rw [ser]; rfl
  | .none, st => by rw [ser]; exact Res.sat_check.bind fun _ _ => trivial
  | .some v, st => by rw [ser]; exact ser_sat v st
  | .unit, st => by rw [ser]; rfl
  | .unitStruct _, st => by rw [ser]; rfl
  | .unitVariant _, st => by rw [ser]; trivial
  | .newtypeStruct v, st => by rw [ser]; exact ser_sat v st
  | .newtypeVariant _ v, st => by rw [ser]; exact ser_sat v st
  | .seq _, st => by rw [ser]; rfl
  | .tuple _, st => by rw [ser]; rfl
  | .tupleStruct _, st => by rw [ser]; rfl
  | .tupleVariant _ _, st => by rw [ser]; rfl
  | .map kvs, st => by rw [ser]; exact (enter_sat st).bind fun _ _ => serMap_sat kvs _
  | .struct fs, st => by rw [ser]; exact (enter_sat st).bind fun _ _ => serFields_sat fs _
  | .structVariant _ fs, st => by
    rw [ser]; exact (enter_sat st).bind fun _ _ => serFields_sat fs _
theorem serMap_sat : ∀ (kvs : List (Val × Val)) (st : QuerySer),
    (serMap kvs st).Sat fun _ => True
  | [], st => by rw [serMap]; trivial
  | (k, v) :: kvs, st => by
    rw [serMap]
    exact (ser_sat k st).bind fun _ _ => (ser_sat v _).bind fun _ _ => serMap_sat kvs _
theorem serFields_sat : ∀ (fs : List (Str × Val)) (st : QuerySer),
    (serFields fs st).Sat fun _ => True
  | [], st => by rw [serFields]; trivial
  | (k, v) :: fs, st => by
    rw [serFields]
    exact (ser_sat v _).bind fun _ _ => serFields_sat fs _
end

end QuerySer

theorem serQuery_sat (v : Val) : (serQuery v).Sat fun _ => True :=
  (QuerySer.ser_sat v _).bind fun _ _ => trivial

namespace HeaderSer

omit [FloatText] in
theorem enter_sat (st : HeaderSer) : st.enter.Sat fun _ => True :=
  Res.sat_check.bind fun _ _ => trivial

mutual
theorem ser_sat : ∀ (v : Val) (st : HeaderSer), (ser v st).Sat fun _ => True
  | .bool _, st => by rw [ser]; trivial
  | .int _ _, st => by rw [ser]; trivial
  | .f32 _, st => by rw [ser]; trivial
  | .f64 _, st => by rw [ser]; trivial
  | .char _, st => by rw [ser]; trivial
  | .str _, st => by rw [ser]; trivial
  | .bytes _, st => by rw [ser]; trivial
  | .none, st => by rw [ser]; exact Res.sat_check.bind fun _ _ => trivial
  | .some v, st => by rw [ser]; exact ser_sat v st
  | .unit, st => by rw [ser]; rfl
  | .unitStruct _, st => by rw [ser]; trivial
  | .unitVariant _, st => by rw [ser]; trivial
  | .newtypeStruct v, st => by rw [ser]; exact ser_sat v st
  | .newtypeVariant _ v, st => by rw [ser]; exact ser_sat v st
  | .seq _, st => by rw [ser]; rfl
  | .tuple _, st => by rw [ser]; rfl
  | .tupleStruct _, st => by rw [ser]; rfl
  | .tupleVariant _ _, st => by rw [ser]; rfl
  | .map kvs, st => by rw [ser]; exact (enter_sat st).bind fun _ _ => serMap_sat kvs _
  | .struct fs, st => by rw [ser]; exact (enter_sat st).bind fun _ _ => serFields_sat fs _
  | .structVariant _ fs, st => by
    rw [ser]; exact (enter_sat st).bind fun _ _ => serFields_sat fs _
theorem serMap_sat : ∀ (kvs : List (Val × Val)) (st : HeaderSer),
    (serMap kvs st).Sat fun _ => True
  | [], st => by rw [serMap]; trivial
  | (k, v) :: kvs, st => by
    rw [serMap]
    exact (ser_sat k st).bind fun _ _ => (ser_sat v _).bind fun _ _ => serMap_sat kvs _
theorem serFields_sat : ∀ (fs : List (Str × Val)) (st : HeaderSer),
    (serFields fs st).Sat fun _ => True
  | [], st => by rw [serFields]; trivial
  | (k, v) :: fs, st => by
    rw [serFields]
    exact (ser_sat v _).bind fun _ _ => serFields_sat fs _
end

end HeaderSer

theorem serHeaders_sat (hs : List Header) (v : Val) : (serHeaders hs v).Sat fun _ => True :=
  (HeaderSer.ser_sat v _).bind fun _ _ => trivial

/-! ### Path values are not query values -/

omit [FloatText] in
theorem PathSer.bind_unstarted {st st' : PathSer} {s : Str} (h1 : st.started = false)
    (h2 : PathSer.bindNextVar st s = .ok st') : False := by
  rw [PathSer.bindNextVar, h1] at h2
  cases h2

theorem querySer_of_pathSer : ∀ (v : Val) (st st' : PathSer), st.started = false →
    PathSer.ser v st = .ok st' → ∀ q, QuerySer.ser v q = .err .invalid
  | .bool _, _, _, h1, h2, q => by rw [PathSer.ser] at h2; exact (PathSer.bind_unstarted h1 h2).elim
  | .int _ _, _, _, h1, h2, q => by rw [PathSer.ser] at h2; exact (PathSer.bind_unstarted h1 h2).elim
  | .f32 _, _, _, h1, h2, q => by rw [PathSer.ser] at h2; exact (PathSer.bind_unstarted h1 h2).elim
  | .f64 _, _, _, h1, h2, q => by rw [PathSer.ser] at h2; exact (PathSer.bind_unstarted h1 h2).elim
  | .char _, _, _, h1, h2, q => by rw [PathSer.ser] at h2; exact (PathSer.bind_unstarted h1 h2).elim
  | .str _, _, _, h1, h2, q => by rw [PathSer.ser] at h2; exact (PathSer.bind_unstarted h1 h2).elim
  | .unitVariant _, _, _, h1, h2, q => by rw [PathSer.ser] at h2; exact (PathSer.bind_unstarted h1 h2).elim
  | .bytes _, _, _, h1, h2, q => by rw [PathSer.ser] at h2; cases h2
  | .none, _, _, h1, h2, q => by rw [PathSer.ser] at h2; cases h2
  | .some _, _, _, h1, h2, q => by rw [PathSer.ser] at h2; cases h2
  | .seq _, _, _, h1, h2, q => by rw [PathSer.ser] at h2; cases h2
  | .map _, _, _, h1, h2, q => by rw [PathSer.ser] at h2; cases h2
  | .struct _, _, _, h1, h2, q => by rw [PathSer.ser] at h2; cases h2
  | .structVariant _ _, _, _, h1, h2, q => by rw [PathSer.ser] at h2; cases h2
  | .unit, _, _, h1, h2, q => by rw [QuerySer.ser]
  | .unitStruct _, _, _, h1, h2, q => by rw [QuerySer.ser]
  | .tuple _, _, _, h1, h2, q => by rw [QuerySer.ser]
  | .tupleStruct _, _, _, h1, h2, q => by rw [QuerySer.ser]
  | .tupleVariant _ _, _, _, h1, h2, q => by rw [QuerySer.ser]
  | .newtypeStruct v, st, st', h1, h2, q => by
    rw [PathSer.ser] at h2; rw [QuerySer.ser]; exact querySer_of_pathSer v st st' h1 h2 q
  | .newtypeVariant _ v, st, st', h1, h2, q => by
    rw [PathSer.ser] at h2; rw [QuerySer.ser]; exact querySer_of_pathSer v st st' h1 h2 q

/-- What is accepted as path is rejected as query. -/
theorem querySer_of_serPath {v : Val} {e : EntryPoint} {p p' : Str} (h : serPath e p v = .ok p')
    (st : QuerySer) : QuerySer.ser v st = .err .invalid := by
  rw [serPath] at h
  cases hs : PathSer.ser v (PathSer.new e p) with
  | ok st' => exact querySer_of_pathSer v _ st' rfl hs st
  | err _ => rw [hs] at h; cases h
  | panic => rw [hs] at h; cases h

/-- The path of a request without path arguments. -/
theorem serPath_unit (e : EntryPoint) (p : Str) :
    serPath e p .unit = if varCount e = 0 then .ok ((instantiate e []).foldl pushSegment p)
      else .err .invalid := by
  rw [serPath, PathSer.ser, PathSer.start]
  by_cases h : varCount e = 0
  · have := PathSer.append_end (p := p) h []
    simp [PathSer.new, h, Res.check, PathSer.finish, this]
  · simp [PathSer.new, h, Res.check]

/-! ### The states of the request serializer -/

namespace ReqSer

/-- After the path field. -/
def AfterPath (p : Str) : ReqSer :=
  { path := p, query := none, pathInit := true, conn := true, request := none }

/-- After the query or header field. -/
def Built (st : ReqSer) (r : ReqBuilder) : Prop := st.conn = false ∧ st.request = some r

theorem takeRequest_built {e : EntryPoint} {st : ReqSer} {r : ReqBuilder} (h : Built st r) :
    takeRequest e st = .ok (r, { st with request := none }) := by
  rw [takeRequest, h.2]

theorem takeRequest_path (e : EntryPoint) (p : Str) :
    takeRequest e (AfterPath p) = .ok (⟨p, []⟩, { AfterPath p with conn := false }) := rfl

theorem takeRequest_new (e : EntryPoint) :
    (varCount e ≠ 0 → takeRequest e new = .panic) ∧
    (varCount e = 0 → ∃ st, st.conn = false ∧
      takeRequest e new = .ok (⟨(instantiate e []).foldl pushSegment ['/'], []⟩, st)) := by
  rw [takeRequest]
  have := serPath_unit e ['/']
  simp only [new, Bool.true_eq_false, Bool.false_eq_true, if_false] at this ⊢
  constructor
  · intro h; rw [this, if_neg h]
  · intro h; rw [this, if_pos h]; exact ⟨_, rfl, rfl⟩

theorem serField_path (e : EntryPoint) (v : Val) (st : ReqSer) (hc : st.conn = true) :
    serField e "path".toList v st = (serPath e st.path v).bind fun p =>
      .ok { st with path := p, pathInit := true } := by
  rw [serField, if_pos rfl, hc]; rfl

omit [FloatText] in
theorem query_ne_path : ("query".toList : Str) ≠ "path".toList := by decide
omit [FloatText] in
theorem header_ne_path : ("header".toList : Str) ≠ "path".toList := by decide
omit [FloatText] in
theorem header_ne_query : ("header".toList : Str) ≠ "query".toList := by decide

theorem serField_other (e : EntryPoint) (k : Str) (v : Val) (st : ReqSer)
    (h1 : k ≠ "path".toList) (h2 : k ≠ "query".toList) (h3 : k ≠ "header".toList) :
    serField e k v st = .err .invalid := by
  rw [serField, if_neg h1, if_neg h2, if_neg h3]

theorem serField_header (e : EntryPoint) (v : Val) (st : ReqSer) :
    serField e "header".toList v st = (takeRequest e st).bind fun (r, st) =>
      (serHeaders r.headers v).bind fun hs =>
        .ok { st with request := some { r with headers := hs } } := by
  rw [serField, if_neg header_ne_path, if_neg header_ne_query, if_pos rfl]; rfl

/-- A query without a path before it is never accepted. -/
theorem serField_query_new (e : EntryPoint) (v : Val) :
    serField e "query".toList v new = .err .invalid := by
  rw [serField, if_neg query_ne_path, if_pos rfl]
  simp only [new, Res.check, if_true, Res.bind_ok, Bool.false_eq_true, if_false]
  rcases (serPath_sat e ['/'] v).ok_or_invalid with ⟨p, hp⟩ | hp
  · simp only [hp, Res.bind_ok, querySer_of_serPath hp]; rfl
  · rw [hp]; rfl

theorem serField_query_path (e : EntryPoint) (v : Val) (p : Str) :
    serField e "query".toList v (AfterPath p) = (serQuery v).bind fun q =>
      .ok { path := p, query := some q, pathInit := true, conn := false,
            request := some ⟨p ++ '?' :: q, []⟩ } := by
  rw [serField, if_neg query_ne_path, if_pos rfl, serQuery]
  simp only [AfterPath, Res.check, if_true, Res.bind_ok, Option.getD_none]
  cases QuerySer.ser v (QuerySer.new []) <;> rfl

/-- Once the request is made, path and query are rejected. -/
theorem serField_built (e : EntryPoint) (k : Str) (v : Val) {st : ReqSer} (hc : st.conn = false)
    (hk : k ≠ "header".toList) : serField e k v st = .err .invalid := by
  by_cases h1 : k = "path".toList
  · rw [serField, if_pos h1, hc]; rfl
  by_cases h2 : k = "query".toList
  · rw [serField, if_neg h1, if_pos h2, hc]; rfl
  exact serField_other e k v st h1 h2 hk

end ReqSer
end
end Htrpc
