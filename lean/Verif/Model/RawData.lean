import Verif.Model.Packer
import Verif.Model.Queue
/-!
raw_data and raw_data_len of packers and unpackers: where the body of a packed or received message is. A result is an offset into the message and a length.
-/
set_option autoImplicit false
namespace StAsio

/-- packer, packer2: include/ext/packer.h:144-146, 239-241 (fixed_length_packer inherits them, line 245). -/
def packerRaw (c : Cfg) (m : Bytes) : Nat × Nat := (c.headLen, w64sub m.length c.headLen)

/-- prefix_suffix_packer: include/ext/packer.h:334-336. -/
def psPackerRaw (p : PsCfg) (m : Bytes) : Nat × Nat := (p.pre.length, w64sub (w64sub m.length p.pre.length) p.suf.length)

/-- unpacker, flexible_unpacker: include/ext/unpacker.h:166-168, 341-343; unpacker2 forwards to the inner unpacker with the content of the object, lines 423-425. `stripped`: what stripped() returns now. -/
def unpackerRaw (c : Cfg) (stripped : Bool) (m : Bytes) : Nat × Nat := if stripped then (0, m.length) else (c.headLen, w64sub m.length c.headLen)

/-- prefix_suffix_unpacker: include/ext/unpacker.h:723-725. -/
def psUnpackerRaw (p : PsCfg) (stripped : Bool) (m : Bytes) : Nat × Nat := if stripped then (0, m.length) else (p.pre.length, w64sub (w64sub m.length p.pre.length) p.suf.length)

/-- All other unpackers (fixed length, non-copy, stream, UDP): include/base.h:288-290. -/
def plainRaw (m : Bytes) : Nat × Nat := (0, m.length)

end StAsio
