/-
HTTP statuses: `miasht::Status` (re-exported as `HttpStatus`, src/types.rs) and the two tables of
htrpc that name them.
-/
import Verif.Model.Basic

namespace Htrpc

/-- `miasht::Status`.  That these are the statuses it knows is a contract of miasht; htrpc names
all of them in src/serializers/rpc_response.rs:256-312. -/
inductive Status where
  | continue100
  | switchingProtocols
  | processing
  | ok
  | created
  | accepted
  | nonAuthoritativeInformation
  | noContent
  | resetContent
  | partialContent
  | multiStatus
  | alreadyReported
  | imUsed
  | multipleChoices
  | movedPermanently
  | found
  | seeOther
  | notModified
  | useProxy
  | temporaryRedirect
  | permanentRedirect
  | badRequest
  | unauthorized
  | paymentRequired
  | forbidden
  | notFound
  | methodNotAllowed
  | notAcceptable
  | proxyAuthenticationRequired
  | requestTimeout
  | conflict
  | gone
  | lengthRequired
  | preconditionFailed
  | payloadTooLarge
  | uriTooLong
  | unsupportedMediaType
  | rangeNotSatisfiable
  | exceptionFailed
  | imATeapot
  | misdirectedRequest
  | unprocessableEntity
  | locked
  | failedDependency
  | upgradeRequired
  | unavailableForLegalReasons
  | internalServerError
  | notImplemented
  | badGateway
  | serviceUnavailable
  | gatewayTimeout
  | httpVersionNotSupported
  | variantAlsoNegotiates
  | insufficientStorage
  | loopDetected
  | bandwidthLimitExceeded
  | notExtended
deriving DecidableEq, Repr

/-- `miasht::Status::code` (contract of miasht: the registered code of each status). -/
def Status.code : Status → Nat
  | .continue100 => 100
  | .switchingProtocols => 101
  | .processing => 102
  | .ok => 200
  | .created => 201
  | .accepted => 202
  | .nonAuthoritativeInformation => 203
  | .noContent => 204
  | .resetContent => 205
  | .partialContent => 206
  | .multiStatus => 207
  | .alreadyReported => 208
  | .imUsed => 226
  | .multipleChoices => 300
  | .movedPermanently => 301
  | .found => 302
  | .seeOther => 303
  | .notModified => 304
  | .useProxy => 305
  | .temporaryRedirect => 307
  | .permanentRedirect => 308
  | .badRequest => 400
  | .unauthorized => 401
  | .paymentRequired => 402
  | .forbidden => 403
  | .notFound => 404
  | .methodNotAllowed => 405
  | .notAcceptable => 406
  | .proxyAuthenticationRequired => 407
  | .requestTimeout => 408
  | .conflict => 409
  | .gone => 410
  | .lengthRequired => 411
  | .preconditionFailed => 412
  | .payloadTooLarge => 413
  | .uriTooLong => 414
  | .unsupportedMediaType => 415
  | .rangeNotSatisfiable => 416
  | .exceptionFailed => 417
  | .imATeapot => 418
  | .misdirectedRequest => 421
  | .unprocessableEntity => 422
  | .locked => 423
  | .failedDependency => 424
  | .upgradeRequired => 426
  | .unavailableForLegalReasons => 451
  | .internalServerError => 500
  | .notImplemented => 501
  | .badGateway => 502
  | .serviceUnavailable => 503
  | .gatewayTimeout => 504
  | .httpVersionNotSupported => 505
  | .variantAlsoNegotiates => 506
  | .insufficientStorage => 507
  | .loopDetected => 508
  | .bandwidthLimitExceeded => 509
  | .notExtended => 510

/-- All statuses. -/
def allStatuses : List Status :=
  [.continue100, .switchingProtocols, .processing, .ok,
   .created, .accepted, .nonAuthoritativeInformation, .noContent,
   .resetContent, .partialContent, .multiStatus, .alreadyReported,
   .imUsed, .multipleChoices, .movedPermanently, .found,
   .seeOther, .notModified, .useProxy, .temporaryRedirect,
   .permanentRedirect, .badRequest, .unauthorized, .paymentRequired,
   .forbidden, .notFound, .methodNotAllowed, .notAcceptable,
   .proxyAuthenticationRequired, .requestTimeout, .conflict, .gone,
   .lengthRequired, .preconditionFailed, .payloadTooLarge, .uriTooLong,
   .unsupportedMediaType, .rangeNotSatisfiable, .exceptionFailed, .imATeapot,
   .misdirectedRequest, .unprocessableEntity, .locked, .failedDependency,
   .upgradeRequired, .unavailableForLegalReasons, .internalServerError, .notImplemented,
   .badGateway, .serviceUnavailable, .gatewayTimeout, .httpVersionNotSupported,
   .variantAlsoNegotiates, .insufficientStorage, .loopDetected, .bandwidthLimitExceeded,
   .notExtended]

/-- `miasht::status::RawStatus::normalize` (contract of miasht): the status with this code. -/
def statusOfCode (code : Nat) : Option Status := allStatuses.find? fun s => s.code == code

/-- src/serializers/rpc_response.rs:254-315 `status_from_str`. -/
def statusFromStr (s : Str) : Option Status :=
  if s = "Continue".toList then some .continue100
  else if s = "SwitchingProtocols".toList then some .switchingProtocols
  else if s = "Processing".toList then some .processing
  else if s = "Ok".toList then some .ok
  else if s = "Created".toList then some .created
  else if s = "Accepted".toList then some .accepted
  else if s = "NonAuthoritativeInformation".toList then some .nonAuthoritativeInformation
  else if s = "NoContent".toList then some .noContent
  else if s = "ResetContent".toList then some .resetContent
  else if s = "PartialContent".toList then some .partialContent
  else if s = "MultiStatus".toList then some .multiStatus
  else if s = "AlreadyReported".toList then some .alreadyReported
  else if s = "ImUsed".toList then some .imUsed
  else if s = "MultipleChoices".toList then some .multipleChoices
  else if s = "MovedPermanently".toList then some .movedPermanently
  else if s = "Found".toList then some .found
  else if s = "SeeOther".toList then some .seeOther
  else if s = "NotModified".toList then some .notModified
  else if s = "UseProxy".toList then some .useProxy
  else if s = "TemporaryRedirect".toList then some .temporaryRedirect
  else if s = "PermanentRedirect".toList then some .permanentRedirect
  else if s = "BadRequest".toList then some .badRequest
  else if s = "Unauthorized".toList then some .unauthorized
  else if s = "PaymentRequired".toList then some .paymentRequired
  else if s = "Forbidden".toList then some .forbidden
  else if s = "NotFound".toList then some .notFound
  else if s = "MethodNotAllowed".toList then some .methodNotAllowed
  else if s = "NotAcceptable".toList then some .notAcceptable
  else if s = "ProxyAuthenticationRequired".toList then some .proxyAuthenticationRequired
  else if s = "RequestTimeout".toList then some .requestTimeout
  else if s = "Conflict".toList then some .conflict
  else if s = "Gone".toList then some .gone
  else if s = "LengthRequired".toList then some .lengthRequired
  else if s = "PreconditionFailed".toList then some .preconditionFailed
  else if s = "PayloadTooLarge".toList then some .payloadTooLarge
  else if s = "UriTooLong".toList then some .uriTooLong
  else if s = "UnsupportedMediaType".toList then some .unsupportedMediaType
  else if s = "RangeNotSatisfiable".toList then some .rangeNotSatisfiable
  else if s = "ExceptionFailed".toList then some .exceptionFailed
  else if s = "ImATeapot".toList then some .imATeapot
  else if s = "MisdirectedRequest".toList then some .misdirectedRequest
  else if s = "UnprocessableEntity".toList then some .unprocessableEntity
  else if s = "Locked".toList then some .locked
  else if s = "FailedDependency".toList then some .failedDependency
  else if s = "UpgradeRequired".toList then some .upgradeRequired
  else if s = "UnavailableForLegalReasons".toList then some .unavailableForLegalReasons
  else if s = "InternalServerError".toList then some .internalServerError
  else if s = "NotImplemented".toList then some .notImplemented
  else if s = "BadGateway".toList then some .badGateway
  else if s = "ServiceUnavailable".toList then some .serviceUnavailable
  else if s = "GatewayTimeout".toList then some .gatewayTimeout
  else if s = "HttpVersionNotSupported".toList then some .httpVersionNotSupported
  else if s = "VariantAlsoNegotiates".toList then some .variantAlsoNegotiates
  else if s = "InsufficientStorage".toList then some .insufficientStorage
  else if s = "LoopDetected".toList then some .loopDetected
  else if s = "BandwidthLimitExceeded".toList then some .bandwidthLimitExceeded
  else if s = "NotExtended".toList then some .notExtended
  else none

/-- src/deserializers/rpc_response.rs:312-377 `status_code_to_str`. -/
def statusCodeToStr (code : Nat) : Option Str :=
  match code with
  | 100 => some "Continue".toList
  | 101 => some "SwitchingProtocols".toList
  | 102 => some "Processing".toList
  | 200 => some "Ok".toList
  | 201 => some "Created".toList
  | 202 => some "Accepted".toList
  | 203 => some "NonAuthoritativeInformation".toList
  | 204 => some "NoContent".toList
  | 205 => some "ResetContent".toList
  | 206 => some "PartialContent".toList
  | 207 => some "MultiStatus".toList
  | 208 => some "AlreadyReported".toList
  | 226 => some "ImUsed".toList
  | 300 => some "MultipleChoices".toList
  | 301 => some "MovedPermanently".toList
  | 302 => some "Found".toList
  | 303 => some "SeeOther".toList
  | 304 => some "NotModified".toList
  | 305 => some "UseProxy".toList
  | 307 => some "TemporaryRedirect".toList
  | 308 => some "PermanentRedirect".toList
  | 400 => some "BadRequest".toList
  | 401 => some "Unauthorized".toList
  | 402 => some "PaymentRequired".toList
  | 403 => some "Forbidden".toList
  | 404 => some "NotFound".toList
  | 405 => some "MethodNotAllowed".toList
  | 406 => some "NotAcceptable".toList
  | 407 => some "ProxyAuthenticationRequired".toList
  | 408 => some "RequestTimeout".toList
  | 409 => some "Conflict".toList
  | 410 => some "Gone".toList
  | 411 => some "LengthRequired".toList
  | 412 => some "PreconditionFailed".toList
  | 413 => some "PayloadTooLarge".toList
  | 414 => some "UriTooLong".toList
  | 415 => some "UnsupportedMediaType".toList
  | 416 => some "RangeNotSatisfiable".toList
  | 417 => some "ExceptionFailed".toList
  | 418 => some "ImATeapot".toList
  | 421 => some "MisdirectedRequest".toList
  | 422 => some "UnprocessableEntity".toList
  | 423 => some "Locked".toList
  | 424 => some "FailedDependency".toList
  | 426 => some "UpgradeRequired".toList
  | 451 => some "UnavailableForLegalReasons".toList
  | 500 => some "InternalServerError".toList
  | 501 => some "NotImplemented".toList
  | 502 => some "BadGateway".toList
  | 503 => some "ServiceUnavailable".toList
  | 504 => some "GatewayTimeout".toList
  | 505 => some "HttpVersionNotSupported".toList
  | 506 => some "VariantAlsoNegotiates".toList
  | 507 => some "InsufficientStorage".toList
  | 508 => some "LoopDetected".toList
  | 509 => some "BandwidthLimitExceeded".toList
  | 510 => some "NotExtended".toList
  | _ => none

end Htrpc
