import Verif.Spec.Message
import Verif.Spec.Factory
import Verif.Model.Script

/-!
# Streams of messages
-/

namespace Spec
open Gobufr

/-- A message in a stream: the bytes before it that belong to no message, and its own bytes. -/
structure Piece where
  junk : List UInt8
  bytes : List UInt8

/-- The bytes of a stream. -/
def streamBytes : List Piece → List UInt8
  | [] => []
  | p :: ps => p.junk ++ p.bytes ++ streamBytes ps

/-- Running the decoder `k` times. -/
def runTimes [GoFloat F] (c : FacCfg) : Nat → M (Fac F) (List (Message F))
  | 0 => pure []
  | k + 1 => do
    let m ← Runtime.run c
    let ms ← runTimes c k
    pure (m :: ms)

/-- What a stream that begins at byte `q` decodes to: the messages one after the other, where `alone p` is
what the bytes of `p` decode to by themselves. -/
def streamMessages (alone : Piece → Message F) (q : Int) : List Piece → List (Message F)
  | [] => []
  | p :: ps => moved (q + p.junk.length) (alone p) ::
      streamMessages alone (q + p.junk.length + p.bytes.length) ps

end Spec
