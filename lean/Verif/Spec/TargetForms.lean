/-
Request targets that are not in origin form, independently of the URL parser.
-/
import Verif.Spec.Verdict

namespace Htrpc.Spec

/-- A slash, in either direction. -/
def AnySlash (c : Char) : Prop := c = '/' ∨ c = '\\'

/-- A character of a scheme. -/
def InScheme (c : Char) : Prop := c.isAlphanum ∨ c = '+' ∨ c = '-' ∨ c = '.'

/-- The target begins with a scheme (given in lower case) and a colon. -/
def SchemeOf (t scheme rest : Str) : Prop :=
  ∃ c s, c.isAlpha ∧ (∀ d ∈ s, InScheme d) ∧ t = c :: (s ++ ':' :: rest) ∧
    scheme = (c :: s).map Char.toLower

/-- There is no scheme. -/
def Schemeless (t : Str) : Prop := ∀ scheme rest, ¬ SchemeOf t scheme rest

/-- The text does not begin with a slash. -/
def NoSlash (r : Str) : Prop := ∀ c s, r = c :: s → ¬ AnySlash c

/-- What follows the scheme, or the whole target, is read like this target in origin form. -/
inductive BehindHost : Str → Str → Prop where
  | slash {c r} : AnySlash c → NoSlash r → BehindHost (c :: r) ('/' :: r)
  | relative {r} : NoSlash r → BehindHost r ('/' :: r)

/-- The target is read like this one in origin form: `a/b` and `\a/b`, but also `http:a/b` and
`http:/a/b`, are read like `/a/b`. -/
inductive ReadAs : Str → Str → Prop where
  | plain {t t'} : Schemeless t → BehindHost t t' → ReadAs t t'
  | http {t rest t'} : SchemeOf t "http".toList rest → BehindHost rest t' → ReadAs t t'

/-- Two slashes. -/
def TwoSlashes (r : Str) : Prop := ∃ c d s, r = c :: d :: s ∧ AnySlash c ∧ AnySlash d

/-- Schemes of URLs that always have a host or a path. -/
def knownSchemes : List Str :=
  ["http".toList, "https".toList, "ws".toList, "wss".toList, "ftp".toList, "file".toList]

/-- The target names a host or a file, perhaps wrongly. -/
inductive NamesHost : Str → Prop where
  | plain {t} : Schemeless t → TwoSlashes t → NamesHost t
  | http {t rest} : SchemeOf t "http".toList rest → TwoSlashes rest → NamesHost t
  | special {t s rest} : SchemeOf t s rest → s ∈ knownSchemes → s ≠ "http".toList → NamesHost t
  | other {t s rest} : SchemeOf t s ('/' :: '/' :: rest) → s ∉ knownSchemes → NamesHost t

/-- The forms of a request target. -/
inductive Form where
  /-- Read like a target in origin form. -/
  | origin (t : Str)
  /-- A scheme of another kind, one slash and this. -/
  | other (r : Str)
  /-- A scheme of another kind, and no slash behind it. -/
  | «opaque»
  /-- With a host or a file. -/
  | host

/-- The form of a request target. -/
inductive HasForm : Str → Form → Prop where
  | origin {t t'} : ReadAs t t' → HasForm t (.origin t')
  | other {t s r} : SchemeOf t s ('/' :: r) → s ∉ knownSchemes → r.head? ≠ some '/' →
      HasForm t (.other r)
  | «opaque» {t s r} : SchemeOf t s r → s ∉ knownSchemes → r.head? ≠ some '/' → HasForm t .opaque
  | host {t} : NamesHost t → HasForm t .host

/-- A text is a path, perhaps with a query behind `?` and a fragment behind `#`. -/
inductive PathAndQuery : Str → Str → Option Str → Prop where
  | path {p f} : '?' ∉ p → '#' ∉ p → Fragment f → PathAndQuery (p ++ f) p none
  | query {p q f} : '?' ∉ p → '#' ∉ p → '#' ∉ q → Fragment f →
      PathAndQuery (p ++ '?' :: (q ++ f)) p (some q)

/-- The segments and the parameters of any target that has segments and names no host. Behind a
scheme of another kind, segments are between `/` only. -/
inductive MeansTarget (t : Str) (segs : List Str) (ps : List (Str × Str)) : Prop where
  | origin {t'} : HasForm t (.origin t') → TargetOf t' segs ps → MeansTarget t segs ps
  | other {r p q pieces} : HasForm t (.other r) → PathAndQuery r p q →
      Pieces (· = '/') p pieces → segs = resolve (pieces.map (writtenOut plainInPath)) →
      Parameters (q.getD []) ps → MeansTarget t segs ps

end Htrpc.Spec
