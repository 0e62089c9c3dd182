/-
What is expected of response statuses, independently of the tables of htrpc.
-/
import Verif.Model.Basic

namespace Htrpc.Spec

/-- The HTTP statuses by name and code (IANA registry; names in camel case). -/
def statusTable : List (Str × Nat) :=
  [("Continue".toList, 100),
   ("SwitchingProtocols".toList, 101),
   ("Processing".toList, 102),
   ("Ok".toList, 200),
   ("Created".toList, 201),
   ("Accepted".toList, 202),
   ("NonAuthoritativeInformation".toList, 203),
   ("NoContent".toList, 204),
   ("ResetContent".toList, 205),
   ("PartialContent".toList, 206),
   ("MultiStatus".toList, 207),
   ("AlreadyReported".toList, 208),
   ("ImUsed".toList, 226),
   ("MultipleChoices".toList, 300),
   ("MovedPermanently".toList, 301),
   ("Found".toList, 302),
   ("SeeOther".toList, 303),
   ("NotModified".toList, 304),
   ("UseProxy".toList, 305),
   ("TemporaryRedirect".toList, 307),
   ("PermanentRedirect".toList, 308),
   ("BadRequest".toList, 400),
   ("Unauthorized".toList, 401),
   ("PaymentRequired".toList, 402),
   ("Forbidden".toList, 403),
   ("NotFound".toList, 404),
   ("MethodNotAllowed".toList, 405),
   ("NotAcceptable".toList, 406),
   ("ProxyAuthenticationRequired".toList, 407),
   ("RequestTimeout".toList, 408),
   ("Conflict".toList, 409),
   ("Gone".toList, 410),
   ("LengthRequired".toList, 411),
   ("PreconditionFailed".toList, 412),
   ("PayloadTooLarge".toList, 413),
   ("UriTooLong".toList, 414),
   ("UnsupportedMediaType".toList, 415),
   ("RangeNotSatisfiable".toList, 416),
   ("ExceptionFailed".toList, 417),
   ("ImATeapot".toList, 418),
   ("MisdirectedRequest".toList, 421),
   ("UnprocessableEntity".toList, 422),
   ("Locked".toList, 423),
   ("FailedDependency".toList, 424),
   ("UpgradeRequired".toList, 426),
   ("UnavailableForLegalReasons".toList, 451),
   ("InternalServerError".toList, 500),
   ("NotImplemented".toList, 501),
   ("BadGateway".toList, 502),
   ("ServiceUnavailable".toList, 503),
   ("GatewayTimeout".toList, 504),
   ("HttpVersionNotSupported".toList, 505),
   ("VariantAlsoNegotiates".toList, 506),
   ("InsufficientStorage".toList, 507),
   ("LoopDetected".toList, 508),
   ("BandwidthLimitExceeded".toList, 509),
   ("NotExtended".toList, 510)]

end Htrpc.Spec
