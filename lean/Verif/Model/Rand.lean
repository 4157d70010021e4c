import Verif.Go

/-! # Model of lib/utils/rand.go

AES in counter mode is a parameter: a reader owns a key stream `ks : Nat → Byte` (the AES-CTR output
under its key with a zero IV, lib/utils/rand.go:71-85) and a position in it. -/

namespace Verif.Rand
open Res

/-- lib/utils/rand.go:60-63 `PRGReader`: key stream and number of key-stream bytes consumed. -/
structure Prg where
  ks : Nat → Byte
  pos : Nat

/-- lib/utils/rand.go:71-85 `NewPRG`: `aesctr key i` is byte `i` of the AES-CTR key stream. -/
def newPRG (aesctr : List Byte → Nat → Byte) (key : List Byte) : Prg := ⟨aesctr key, 0⟩

/-- `n` key-stream bytes starting at `pos`. -/
def keyStream (ks : Nat → Byte) (pos n : Nat) : List Byte :=
  (List.range n).map (fun j => ks (pos + j))

/-- `cipher.Stream.XORKeyStream(p, p)`: xors the next `len(p)` key-stream bytes into `p`. -/
def xorKeyStream (g : Prg) (p : List Byte) : List Byte × Prg :=
  (List.zipWith (· ^^^ ·) p (keyStream g.ks g.pos p.length), { g with pos := g.pos + p.length })

/-- lib/utils/rand.go:101-110 `(*PRGReader).Read`: `p` is the buffer passed in, the result is its new
contents. Buffers shorter than a block consume a whole 16-byte block. -/
def Prg.read (g : Prg) (p : List Byte) : List Byte × Prg :=
  if p.length < 16 then
    let (buf, g') := xorKeyStream g (List.replicate 16 0)
    (buf.take p.length ++ p.drop 16, g')
  else xorKeyStream g p

/-- State of the `bufio.Reader` of lib/utils/rand.go:112-117 (`bufio.NewReaderSize(prg, bufSize)`):
the internal array `buf`, the read and write offsets `r`, `w`, and the underlying reader. -/
structure Buf where
  buf : List Byte
  r : Nat
  w : Nat
  src : Prg

/-- lib/utils/rand.go:112-117 `NewBufPRG` (`size` is the constant `bufSize` = 8192, line 39). -/
def newBuf (size : Nat) (src : Prg) : Buf := ⟨List.replicate size 0, 0, 0, src⟩

/-- The standard library's `(*bufio.Reader).Read` on a source that never fails and always fills the
slice it is given: copies what is buffered; an empty buffer is first refilled by one read of the source
into the whole internal array (a request at least as large as the array goes straight to the source).
Returns the new contents of `p`, the number of bytes read and the new state. Read from the
documentation/source of Go's bufio; it is not part of /repo. -/
def Buf.read (b : Buf) (p : List Byte) : List Byte × Nat × Buf :=
  if p.length = 0 then (p, 0, b)
  else if b.r = b.w ∧ b.buf.length ≤ p.length then
    let (p', src') := b.src.read p
    (p', p.length, { b with src := src' })
  else
    let b := if b.r = b.w then
        let (a, src') := b.src.read b.buf
        { buf := a, r := 0, w := a.length, src := src' : Buf }
      else b
    let avail := (b.buf.take b.w).drop b.r
    let n := min p.length avail.length
    (avail.take n ++ p.drop n, n, { b with r := b.r + n })

/-- Loop of lib/utils/rand.go:138-144: fill `buf[read:8]` until eight bytes are read; `fuel` bounds the
number of calls of the reader (`none`: not finished within the bound). -/
def fill8 : Nat → List Byte → Nat → Buf → Option (List Byte × Buf)
  | 0, buf, read, b => if read < 8 then none else some (buf, b)
  | fuel + 1, buf, read, b =>
    if read < 8 then
      let (w, n, b') := b.read (buf.drop read)
      fill8 fuel (buf.take read ++ w) (read + n) b'
    else some (buf, b)

/-- lib/utils/rand.go:133-148 `(*BufPRGReader).Uint64` (the mutex makes the calls atomic). -/
def uint64 (fuel : Nat) (b : Buf) : Option (Nat × Buf) := do
  let (buf, b') ← fill8 fuel (List.replicate 8 0) 0 b
  some (ofLE buf, b')

/-- lib/utils/rand.go:127-131 `Int63`. -/
def int63 (fuel : Nat) (b : Buf) : Option (Nat × Buf) := do
  let (u, b') ← uint64 fuel b
  some (u % 2 ^ 63, b')

/-- A history of reads of the plain generator into the given buffers; the outputs in order. -/
def readAll : List (List Byte) → Prg → List (List Byte) × Prg
  | [], g => ([], g)
  | p :: ps, g =>
    let (o, g') := g.read p
    let (os, g'') := readAll ps g'
    (o :: os, g'')

/-- A history of `Uint64` calls. -/
def uint64s (fuel : Nat) : Nat → Buf → Option (List Nat × Buf)
  | 0, b => some ([], b)
  | k + 1, b => do
    let (u, b') ← uint64 fuel b
    let (us, b'') ← uint64s fuel k b'
    some (u :: us, b'')

end Verif.Rand
