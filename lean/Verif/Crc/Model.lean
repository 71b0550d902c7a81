import Verif.Basic

/-! Model of `Jsi_Crc32`, src/jsiCmds.c:4196-4213. -/

namespace Verif.Crc

/-- src/jsiCmds.c:4198-4201  `s_crc32`. -/
def table : List (BitVec 32) :=
  [0x00000000#32, 0x1db71064#32, 0x3b6e20c8#32, 0x26d930ac#32, 0x76dc4190#32, 0x6b6b51f4#32,
   0x4db26158#32, 0x5005713c#32, 0xedb88320#32, 0xf00f9344#32, 0xd6d6a3e8#32, 0xcb61b38c#32,
   0x9b64c2b0#32, 0x86d3d2d4#32, 0xa00ae278#32, 0xbdbdf21c#32]

/-- `s_crc32[i]`; the index is an xor of two nibbles, so always below 16. -/
def tab (i : BitVec 32) : BitVec 32 := table.getD i.toNat 0

/-- src/jsiCmds.c:4207-4209: one turn of the loop for byte `b`. -/
def byteStep (crc : BitVec 32) (b : UInt8) : BitVec 32 :=
  let bb : BitVec 32 := b.toBitVec.setWidth 32
  let crc := (crc >>> 4) ^^^ tab ((crc &&& 0xF#32) ^^^ (bb &&& 0xF#32))
  (crc >>> 4) ^^^ tab ((crc &&& 0xF#32) ^^^ (bb >>> 4))

/-- src/jsiCmds.c:4196-4213  `Jsi_Crc32(crc, ptr, buf_len)`; `none` is the NULL pointer. -/
def crc32 (crc : BitVec 32) : Option (List UInt8) → BitVec 32
  | none => 0
  | some buf => ~~~(buf.foldl byteStep (~~~crc))

end Verif.Crc
