import Verif.Go

/-! # Model of lib/utils/encoding.go -/

namespace Verif.Utils
open Res

/-- lib/utils/encoding.go:8-16 `Uint32SliceToByteSlice`. `PutUint32` on a 4-byte sub-slice is a
copy of four bytes to that window. -/
def uint32SliceToByteSlice (inp : List U32) : Res (List Byte) :=
  let nb := 4
  let out := List.replicate (inp.length * nb) (0 : Byte)
  forLoop inp.length (fun i out => do
    let x ← idx inp i
    let _window ← slice out (i * nb) ((i + 1) * nb)
    copyAt out (i * nb) (putBE32 x)) out

/-- lib/utils/encoding.go:18-25 `ByteSliceToUint32Slice`. -/
def byteSliceToUint32Slice (inp : List Byte) : Res (List U32) :=
  let nb := 4
  let out := List.replicate (inp.length / nb) (0 : U32)
  forLoop out.length (fun i out => do
    let rest ← slice inp (i * nb) inp.length
    let x ← getBE32 rest
    setAt out i x) out

/-- lib/utils/encoding.go:27-41 `ByteToBits`; `bits.LeadingZeros8(d) == 0` is "the top bit of `d` is
set", `d << 1` drops the top bit. -/
def byteToBits (data : List Byte) : Res (List Bool) :=
  let out := List.replicate (data.length * 8) false
  forLoop data.length (fun i out => do
    let d ← idx data i
    let (out, _) ← forLoop 8 (fun j (s : List Bool × Byte) => do
      let out ← (if s.2.msb = true then setAt s.1 (i * 8 + j) true else setAt s.1 (i * 8 + j) false)
      ok (out, s.2 <<< 1)) (out, d)
    ok out) out

end Verif.Utils
