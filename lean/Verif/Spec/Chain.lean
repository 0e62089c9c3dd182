/-
Requests and responses that pass through any number of gateways.
-/
import Verif.Spec.PassBack
import Verif.Model.ReqDe
import Verif.Model.ReqSer
import Verif.Model.RespDe
import Verif.Model.RespSer

namespace Htrpc.Spec
open Htrpc

/-- What becomes of a text in a path, as in C10: tabs and line breaks are lost, and the bytes of the rest
in UTF-8 are read as one character each. -/
def garbledText (s : Str) : Str := latin1 (utf8 (strip s))

/-- What becomes of an argument. -/
def garbledArg : Val → Val
  | .str s => .str (garbledText s)
  | .newtypeStruct v => .newtypeStruct (garbledArg v)
  | v => v

/-- What becomes of the arguments of a path. -/
def garbledPath : Val → Val
  | .tuple vs => .tuple (vs.map garbledArg)
  | .tupleStruct vs => .tupleStruct (vs.map garbledArg)
  | .newtypeStruct v => .newtypeStruct (garbledPath v)
  | v => v

/-- What becomes of a request: its path is changed. -/
def garbled : Val → Val
  | .struct fs => .struct (fs.map fun f => (f.1, if f.1 = "path".toList then garbledPath f.2 else f.2))
  | v => v

/-- The bytes outside of ASCII that a text needs. -/
def foreignBytes (s : Str) : Nat := (utf8 s).countP fun b => decide (128 ≤ b.toNat)

/-- The ASCII characters of a text. -/
def asciiChars (s : Str) : Nat := s.countP fun c => decide (c.toNat < 128)

/-- A server on the way: the method and the entry point of the procedure that is called. -/
structure Hop where
  method : Method
  entry : EntryPoint

section
variable [FloatText]

/-- A request is sent to a server, with any body, and arrives there, with any further headers that have
other names; the procedure reads `w` from it. -/
inductive Hopped (o : UrlOracle) (t : Ty) (h : Hop) (v w : Val) : Prop where
  | intro (body : Bytes) (r : Request) (target : Target) (segs : List Str) (hs : List Header) :
      serRequest h.method h.entry v body = .ok r → parseTarget o r.target = some target →
      target.segs = some segs → Matches h.entry segs → hs ≠ [] → AsciiNames hs →
      (∀ ts u, StructOf t ts → ts.lookup "header".toList = some u →
        askedFor u hs = askedFor u r.headers) →
      deRequest h.entry t target hs = .ok w → Hopped o t h v w

/-- A request passes through servers, each of which calls the next one with the request that it has
read. -/
inductive Relayed (o : UrlOracle) (t : Ty) : List Hop → Val → Val → Prop where
  | nil (v) : Relayed o t [] v v
  | cons {h hs v u w} : Hopped o t h v u → Relayed o t hs u w → Relayed o t (h :: hs) v w

/-- A response is sent, with any body, and arrives, with any further headers that have other names; the
client reads `w` from it. -/
inductive Handed (t : Ty) (v w : Val) : Prop where
  | intro (body : Bytes) (r : Response) (hs : List Header) : serResponse v body = .ok r → hs ≠ [] →
      AsciiNames hs → (∀ ts u, FieldsOf t ts → ts.lookup "header".toList = some u →
        askedFor u hs = askedFor u r.headers) →
      deResponse t r.status.code hs = .ok w → Handed t v w

/-- A response passes back through a number of servers, each of which returns the response that it has
read. -/
inductive HandedBack (t : Ty) : Nat → Val → Val → Prop where
  | nil (v) : HandedBack t 0 v v
  | cons {n v u w} : Handed t v u → HandedBack t n u w → HandedBack t (n + 1) v w

/-- A URL can carry the path that a request makes up at an entry point. -/
def PathCarried (e : EntryPoint) (v : Val) : Prop := ∃ ss, ArgTexts v ss ∧ Carried (instantiate e ss)

end

end Htrpc.Spec
