/-! # Identity of a batch -/
namespace Verif

/-- batch_id.py:11, `BatchID`. Digests are naturals. -/
structure BatchID where
  viewNo : Nat
  ppViewNo : Nat
  ppSeqNo : Nat
  ppDigest : Nat
  deriving DecidableEq, Repr

end Verif
