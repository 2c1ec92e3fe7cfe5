import Verif.Buffer.NVModel

/-
The checksum of the persistent ring buffer: CRC-32 as computed by crate crc32fast (non_volatile_ring_buffer.rs:998-1073), bit by bit.
The crate computes the same function with tables or special instructions; that it does is taken from its documentation.

Simplifications: a little-endian machine; `w` is the number of bytes of `isize`, which is what the discriminant of an `Option` is hashed as.
-/
namespace Verif.Crc32

open Verif.Buffer (Crc le32)

/-- The polynomial of IEEE 802.3, lowest power in the highest bit. -/
def poly : BitVec 32 := 0xEDB88320#32

/-- Division by one power. -/
def shift (x : BitVec 32) : BitVec 32 := if x.getLsbD 0 then (x >>> 1) ^^^ poly else x >>> 1

/-- A bit in the lowest place. -/
def bit (b : Bool) : BitVec 32 := if b then 1#32 else 0#32

/-- One bit of input. -/
def step (s : BitVec 32) (b : Bool) : BitVec 32 := shift (s ^^^ bit b)

/-- Lowest bit first. -/
def bitsOf (b : UInt8) : List Bool := (List.range 8).map fun i => b.toNat.testBit i

/-- `Hasher::update`, beginning with `Hasher::new`, and `finalize` on bits. -/
def crcBits (l : List Bool) : BitVec 32 := ~~~ (l.foldl step (BitVec.allOnes 32))

/-- `do_crc32` (non_volatile_ring_buffer.rs:1002-1010). -/
def crc32 (bs : List UInt8) : Nat := (crcBits (bs.flatMap bitsOf)).toNat

/-- `Option::<u32>::hash`: the discriminant, then the value. -/
def optBytes (w : Nat) : Option Nat → List UInt8
  | none => List.replicate w 0
  | some v => 1 :: List.replicate (w - 1) 0 ++ le32 v

/-- `compute_header_crc_32` (non_volatile_ring_buffer.rs:1060-1073): what is fed to the hasher. -/
def hdrBytes (w : Nat) (nws : Nat) (cws lweb nrs : Option Nat) : List UInt8 :=
  le32 nws ++ optBytes w cws ++ optBytes w lweb ++ optBytes w nrs

/-- The checksums of the buffer. -/
def crc (w : Nat) : Crc where
  sum := crc32
  sum_lt l := (crcBits (l.flatMap bitsOf)).isLt
  hdr nws cws lweb nrs := crc32 (hdrBytes w nws cws lweb nrs)

end Verif.Crc32
