/-!
# Model of `base/hexadecimal_body.hpp`

Memory is a function from addresses to bytes, so that overlapping buffers can be expressed.
-/

namespace Principia.Hexadecimal

/-- base/hexadecimal_body.hpp:17-24 `byte_to_hexadecimal_digits`, the literal "000102…FEFF", as the list of the codes of
its 512 characters (extracted from the source by a script). -/
def byteToHexadecimalDigits : List Nat :=
  [0x30, 0x30, 0x30, 0x31, 0x30, 0x32, 0x30, 0x33, 0x30, 0x34, 0x30, 0x35, 0x30, 0x36, 0x30, 0x37, 0x30, 0x38, 0x30, 0x39, 0x30, 0x41, 0x30, 0x42, 0x30, 0x43, 0x30, 0x44, 0x30, 0x45, 0x30, 0x46,
   0x31, 0x30, 0x31, 0x31, 0x31, 0x32, 0x31, 0x33, 0x31, 0x34, 0x31, 0x35, 0x31, 0x36, 0x31, 0x37, 0x31, 0x38, 0x31, 0x39, 0x31, 0x41, 0x31, 0x42, 0x31, 0x43, 0x31, 0x44, 0x31, 0x45, 0x31, 0x46,
   0x32, 0x30, 0x32, 0x31, 0x32, 0x32, 0x32, 0x33, 0x32, 0x34, 0x32, 0x35, 0x32, 0x36, 0x32, 0x37, 0x32, 0x38, 0x32, 0x39, 0x32, 0x41, 0x32, 0x42, 0x32, 0x43, 0x32, 0x44, 0x32, 0x45, 0x32, 0x46,
   0x33, 0x30, 0x33, 0x31, 0x33, 0x32, 0x33, 0x33, 0x33, 0x34, 0x33, 0x35, 0x33, 0x36, 0x33, 0x37, 0x33, 0x38, 0x33, 0x39, 0x33, 0x41, 0x33, 0x42, 0x33, 0x43, 0x33, 0x44, 0x33, 0x45, 0x33, 0x46,
   0x34, 0x30, 0x34, 0x31, 0x34, 0x32, 0x34, 0x33, 0x34, 0x34, 0x34, 0x35, 0x34, 0x36, 0x34, 0x37, 0x34, 0x38, 0x34, 0x39, 0x34, 0x41, 0x34, 0x42, 0x34, 0x43, 0x34, 0x44, 0x34, 0x45, 0x34, 0x46,
   0x35, 0x30, 0x35, 0x31, 0x35, 0x32, 0x35, 0x33, 0x35, 0x34, 0x35, 0x35, 0x35, 0x36, 0x35, 0x37, 0x35, 0x38, 0x35, 0x39, 0x35, 0x41, 0x35, 0x42, 0x35, 0x43, 0x35, 0x44, 0x35, 0x45, 0x35, 0x46,
   0x36, 0x30, 0x36, 0x31, 0x36, 0x32, 0x36, 0x33, 0x36, 0x34, 0x36, 0x35, 0x36, 0x36, 0x36, 0x37, 0x36, 0x38, 0x36, 0x39, 0x36, 0x41, 0x36, 0x42, 0x36, 0x43, 0x36, 0x44, 0x36, 0x45, 0x36, 0x46,
   0x37, 0x30, 0x37, 0x31, 0x37, 0x32, 0x37, 0x33, 0x37, 0x34, 0x37, 0x35, 0x37, 0x36, 0x37, 0x37, 0x37, 0x38, 0x37, 0x39, 0x37, 0x41, 0x37, 0x42, 0x37, 0x43, 0x37, 0x44, 0x37, 0x45, 0x37, 0x46,
   0x38, 0x30, 0x38, 0x31, 0x38, 0x32, 0x38, 0x33, 0x38, 0x34, 0x38, 0x35, 0x38, 0x36, 0x38, 0x37, 0x38, 0x38, 0x38, 0x39, 0x38, 0x41, 0x38, 0x42, 0x38, 0x43, 0x38, 0x44, 0x38, 0x45, 0x38, 0x46,
   0x39, 0x30, 0x39, 0x31, 0x39, 0x32, 0x39, 0x33, 0x39, 0x34, 0x39, 0x35, 0x39, 0x36, 0x39, 0x37, 0x39, 0x38, 0x39, 0x39, 0x39, 0x41, 0x39, 0x42, 0x39, 0x43, 0x39, 0x44, 0x39, 0x45, 0x39, 0x46,
   0x41, 0x30, 0x41, 0x31, 0x41, 0x32, 0x41, 0x33, 0x41, 0x34, 0x41, 0x35, 0x41, 0x36, 0x41, 0x37, 0x41, 0x38, 0x41, 0x39, 0x41, 0x41, 0x41, 0x42, 0x41, 0x43, 0x41, 0x44, 0x41, 0x45, 0x41, 0x46,
   0x42, 0x30, 0x42, 0x31, 0x42, 0x32, 0x42, 0x33, 0x42, 0x34, 0x42, 0x35, 0x42, 0x36, 0x42, 0x37, 0x42, 0x38, 0x42, 0x39, 0x42, 0x41, 0x42, 0x42, 0x42, 0x43, 0x42, 0x44, 0x42, 0x45, 0x42, 0x46,
   0x43, 0x30, 0x43, 0x31, 0x43, 0x32, 0x43, 0x33, 0x43, 0x34, 0x43, 0x35, 0x43, 0x36, 0x43, 0x37, 0x43, 0x38, 0x43, 0x39, 0x43, 0x41, 0x43, 0x42, 0x43, 0x43, 0x43, 0x44, 0x43, 0x45, 0x43, 0x46,
   0x44, 0x30, 0x44, 0x31, 0x44, 0x32, 0x44, 0x33, 0x44, 0x34, 0x44, 0x35, 0x44, 0x36, 0x44, 0x37, 0x44, 0x38, 0x44, 0x39, 0x44, 0x41, 0x44, 0x42, 0x44, 0x43, 0x44, 0x44, 0x44, 0x45, 0x44, 0x46,
   0x45, 0x30, 0x45, 0x31, 0x45, 0x32, 0x45, 0x33, 0x45, 0x34, 0x45, 0x35, 0x45, 0x36, 0x45, 0x37, 0x45, 0x38, 0x45, 0x39, 0x45, 0x41, 0x45, 0x42, 0x45, 0x43, 0x45, 0x44, 0x45, 0x45, 0x45, 0x46,
   0x46, 0x30, 0x46, 0x31, 0x46, 0x32, 0x46, 0x33, 0x46, 0x34, 0x46, 0x35, 0x46, 0x36, 0x46, 0x37, 0x46, 0x38, 0x46, 0x39, 0x46, 0x41, 0x46, 0x42, 0x46, 0x43, 0x46, 0x44, 0x46, 0x45, 0x46, 0x46]

/-- base/hexadecimal_body.hpp:29 `SKIP_7`. -/
def skip7 : List Nat := [0, 0, 0, 0, 0, 0, 0]
/-- base/hexadecimal_body.hpp:30 `SKIP_26`. -/
def skip26 : List Nat := skip7 ++ skip7 ++ skip7 ++ [0, 0, 0, 0, 0]
/-- base/hexadecimal_body.hpp:31 `SKIP_48`. -/
def skip48 : List Nat := skip26 ++ skip7 ++ skip7 ++ skip7 ++ [0]

/-- base/hexadecimal_body.hpp:33-36 `hexadecimal_digits_to_nibble`; an aggregate initialization of an array of 256
elements, the missing ones being 0. -/
def hexadecimalDigitsToNibble (i : Nat) : Nat :=
  (skip48 ++ [0, 1, 2, 3, 4, 5, 6, 7, 8, 9] ++
   skip7 ++ [0xa, 0xb, 0xc, 0xd, 0xe, 0xf] ++
   skip26 ++ [0xa, 0xb, 0xc, 0xd, 0xe, 0xf]).getD i 0

/-- The memory: an address-indexed store of bytes (values less than 256 by convention). -/
abbrev Mem := Nat → Nat

def Mem.set (m : Mem) (a v : Nat) : Mem := fun b => if b = a then v else m b

/-- base/hexadecimal_body.hpp:65-69: the backward loop of `Encode`, for the bytes of index `i - 1`, …, 0. -/
def encodeLoop (ia oa : Nat) : Nat → Mem → Mem
  | 0, m => m
  | i + 1, m =>
    let b := m (ia + i)
    let m := m.set (oa + 2 * i) (byteToHexadecimalDigits.getD (b <<< 1) 0)
    let m := m.set (oa + 2 * i + 1) (byteToHexadecimalDigits.getD ((b <<< 1) + 1) 0)
    encodeLoop ia oa i m

/-- base/hexadecimal_body.hpp:43-70 `Encode`: `n` bytes at address `ia`, output of size `osize` at address `oa`.
`none` is a failed `CHECK`.  Simplification: the checks against null pointers are omitted. -/
def encode (nullTerminated : Bool) (ia n oa osize : Nat) (m : Mem) : Option Mem :=
  if ia ≤ oa + 1 ∨ oa + 2 * n ≤ ia then
    if (2 * n + if nullTerminated then 1 else 0) ≤ osize then
      let m := if nullTerminated then m.set (oa + 2 * n) 0 else m
      some (encodeLoop ia oa n m)
    else none
  else none

/-- base/hexadecimal_body.hpp:110: reading the nibble of the `char` `c`.  `char` is signed on the supported platforms,
so that a code above 127 would index the array with a negative number: undefined behaviour. -/
def nibble (c : Nat) : Option Nat := if c < 128 then some (hexadecimalDigitsToNibble c) else none

/-- base/hexadecimal_body.hpp:107-112: the forward loop of `Decode`; `k` pairs of digits remain, the next one at `ia`. -/
def decodeLoop : Nat → Nat → Nat → Mem → Option Mem
  | _, _, 0, m => some m
  | ia, oa, k + 1, m => do
    let hi ← nibble (m ia)
    let lo ← nibble (m (ia + 1))
    decodeLoop (ia + 2) (oa + 1) k (m.set oa (((hi <<< 4) ||| lo) % 256))

/-- base/hexadecimal_body.hpp:92-113 `Decode`: `isize` characters at address `ia`. -/
def decode (ia isize oa osize : Nat) (m : Mem) : Option Mem :=
  let isize := isize / 2 * 2  -- `input.size &= ~1`
  if oa ≤ ia + 1 ∨ ia + isize ≤ oa then
    if isize / 2 ≤ osize then decodeLoop ia oa (isize / 2) m else none
  else none

/-- base/hexadecimal_body.hpp:82-90 `EncodedLength`. -/
def encodedLength (nullTerminated : Bool) (n : Nat) : Nat := (n <<< 1) + if nullTerminated then 1 else 0

/-- base/hexadecimal_body.hpp:125-129 `DecodedLength`. -/
def decodedLength (n : Nat) : Nat := n >>> 1

end Principia.Hexadecimal
