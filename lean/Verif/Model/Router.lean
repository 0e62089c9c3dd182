/-
src/router.rs: trie of registered handlers.
-/
import Verif.Model.Entry

namespace Htrpc

/-- src/router.rs:110-113 `TrieNode` (and 70-72 `Trie`, which is its root).  The hash maps are
association lists with at most one entry per key; `none` is the key of a variable segment.
Handlers are opaque values of type `H`. -/
inductive Trie (H : Type) where
  | node (children : List (Option Str × Trie H)) (leafs : List (Method × H))

/-- The two errors of `Router::route`. -/
inductive RouteErr where
  /-- `HttpStatus::NotFound` -/
  | notFound
  /-- `HttpStatus::MethodNotAllowed` -/
  | methodNotAllowed
deriving DecidableEq, Repr

namespace Trie

variable {H : Type}

/-- src/router.rs:115-120 `TrieNode::new`. -/
def empty : Trie H := node [] []

/-- The map of children. -/
def children : Trie H → List (Option Str × Trie H)
  | node cs _ => cs

/-- The map of leafs. -/
def leafs : Trie H → List (Method × H)
  | node _ ls => ls

/-- src/router.rs:93 `children.entry(key).or_insert_with(..)` followed by a change of the child:
replace the entry of `key` or add one. -/
def setChild (cs : List (Option Str × Trie H)) (key : Option Str) (t : Trie H) :
    List (Option Str × Trie H) :=
  match cs with
  | [] => [(key, t)]
  | (k, c) :: cs => if k = key then (k, t) :: cs else (k, c) :: setChild cs key t

/-- src/router.rs:79-104 `Trie::insert`: the changed trie and whether the handler was inserted
(`false` models the `Invalid` error of lines 95-101; nodes created on the way remain). -/
def insert (m : Method) (h : H) : List Seg → Trie H → Trie H × Bool
  | [], node cs ls =>
    match ls.lookup m with
    | some _ => (node cs ls, false)
    | none => (node cs ((m, h) :: ls), true)
  | s :: ss, node cs ls =>
    let child := (cs.lookup s.asOption).getD empty
    let r := insert m h ss child
    (node (setChild cs s.asOption r.1) ls, r.2)

/-- src/router.rs:121-126 `get_child`. -/
def getChild (t : Trie H) (segment : Str) : Option (Trie H) :=
  match t.children.lookup (some segment) with
  | some c => some c
  | none => t.children.lookup none

/-- src/router.rs:127-129 `get_value`. -/
def getValue (t : Trie H) (m : Method) : Option H := t.leafs.lookup m

/-- src/router.rs:26-42 `route` on the path segments. -/
def route (m : Method) : List Str → Trie H → Except RouteErr H
  | [], t =>
    match t.getValue m with
    | some h => .ok h
    | none => .error .methodNotAllowed
  | s :: ss, t =>
    match t.getChild s with
    | some c => route m ss c
    | none => .error .notFound

end Trie

/-- A registration attempt: method, entry point, handler (src/server.rs:49-104). -/
structure Reg (H : Type) where
  method : Method
  entry : EntryPoint
  handler : H

/-- src/router.rs:56-67 `register_handler`, for a sequence of attempts: the trie, and for each
attempt whether it succeeded. -/
def registerAll {H : Type} : List (Reg H) → Trie H → Trie H × List Bool
  | [], t => (t, [])
  | r :: rs, t =>
    let (t, b) := t.insert r.method r.handler r.entry
    let (t, bs) := registerAll rs t
    (t, b :: bs)

end Htrpc
