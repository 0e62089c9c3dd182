/-
The segments that are pushed are written as the specification says.
-/
import Verif.Lemmas.Origin
import Verif.Spec.Segment

namespace Htrpc
open Spec

theorem pctEncode_segment (s : Str) : pctEncode keepSegment (utf8 s) = writtenOut plainInSegment s := by
  refine pctEncode_written ?_ ?_ ?_ s
  · intro b hb
    simp [keepSegment, keepPath, isGraphic]
    omega
  · intro c hc
    simp only [keepSegment, keepPath, isGraphic, plainInSegment, plainInPath,
      u8_toNat (show c.toNat < 256 by omega), Char.ofNat_toNat]
    congr 2
  · intro c hc
    simp [plainInSegment, plainInPath]
    omega

theorem encode_written (s : Str) : encodeSegment s = asSegment s := by
  rw [encodeSegment_eq, pctEncode_segment, asSegment]

theorem asSegment_eq : asSegment = encodeSegment := funext fun s => (encode_written s).symm

end Htrpc
