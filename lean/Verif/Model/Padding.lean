import Verif.Go

/-! # Model of the block padding in lib/database/pgp.go -/

namespace Verif.Padding
open Res

/-- lib/database/pgp.go:164-168 `PadBlock`; the remainder by zero panics. -/
def padBlock (block : List Byte) (blockLen : Nat) : Res (List Byte) :=
  if blockLen = 0 then crash "integer divide by zero" else
  let block := block ++ [0x80]
  ok (block ++ List.replicate (blockLen - block.length % blockLen) 0)

/-- lib/database/pgp.go:170-172 `PadWithSignalByte`. -/
def padWithSignalByte (block : List Byte) : List Byte := block ++ [0x80]

/-- `bytes.TrimRightFunc` with the predicate "rune 0", lib/database/pgp.go:176-178. The only UTF-8 encoding that
decodes to rune 0 is the byte 0 (other encodings decode to `RuneError`), so this removes the zero bytes at the end. -/
def trimZeros (block : List Byte) : List Byte := (block.reverse.dropWhile (· = 0)).reverse

/-- lib/database/pgp.go:174-181 `UnPadBlock`; slicing an empty block to length -1 panics. -/
def unPadBlock (block : List Byte) : Res (List Byte) :=
  let block := trimZeros block
  if block.length = 0 then crash "slice bounds out of range" else ok (block.take (block.length - 1))

end Verif.Padding
