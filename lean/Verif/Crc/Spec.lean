/-!
CRC-32 (ISO-HDLC / zlib), bit serial: the register is shifted right one bit per message bit (least
significant bit of each byte first) and the reflected polynomial 0xEDB88320 is added when the bit
that leaves the register differs from the message bit.
-/

namespace Verif.Crc.Spec

/-- The reflected generator polynomial. -/
def poly : BitVec 32 := 0xEDB88320#32

/-- Clock one message bit into the register. -/
def clock (r : BitVec 32) (bit : Bool) : BitVec 32 :=
  if r.getLsbD 0 != bit then (r >>> 1) ^^^ poly else r >>> 1

/-- The bits of a byte, least significant first. -/
def bits (b : UInt8) : List Bool := (List.range 8).map (fun i => b.toNat.testBit i)

/-- CRC-32 of `msg` continuing from the previous CRC value `prev` (0 at the start): the register is
complemented before and after. -/
def crc32 (prev : BitVec 32) (msg : List UInt8) : BitVec 32 :=
  ~~~((msg.flatMap bits).foldl clock (~~~prev))

end Verif.Crc.Spec
