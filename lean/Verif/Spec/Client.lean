/-
What is expected of a call by the client.
-/
import Verif.Model.Client

namespace Htrpc.Spec

/-- A result other than `NotReady`. -/
def Happened (r : IoResult) : Bool := decide (r ≠ .notReady)

end Htrpc.Spec
