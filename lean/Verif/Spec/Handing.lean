import Verif.Model.Handing
/-! # Calls on an encoder and the plain calls they amount to -/

namespace Zopfli

/-- The data a call hands over when it succeeds.  (`write_vectored` says how much of its buffers it has taken.) -/
def Hand.data : Hand → List UInt8
  | .write buf => buf
  | .writeAll buf => buf
  | .writeVectored bufs => (bufs.find? fun b => !b.isEmpty).getD []
  | .writeAllVectored bufs => bufs.flatten
  | .writeFmt pieces => pieces.flatten
  | .flush => []

/-- The calls of `write` and `flush` that a call amounts to: `write_all` does nothing for an empty buffer, `write_vectored` takes the first
buffer that is not empty. -/
def Hand.plain : Hand → List Call
  | .write buf => [.write buf]
  | .writeAll buf => if buf = [] then [] else [.write buf]
  | .writeVectored bufs => [.write ((bufs.find? fun b => !b.isEmpty).getD [])]
  | .writeAllVectored bufs => (bufs.filter fun b => !b.isEmpty).map .write
  | .writeFmt pieces => (pieces.filter fun b => !b.isEmpty).map .write
  | .flush => [.flush]

end Zopfli
