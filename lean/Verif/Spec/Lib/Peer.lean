import Verif.Model.Prog.Peer

/-!
Messages between peers as bytes: the length in four bytes, most significant first, then the kind and the payload.
-/
namespace Che.Spec.Peer
open Che.Lib Che.Prog.Peer

/-- A number in four bytes. -/
def be4 (n : Nat) : Bytes := [UInt8.ofNat (n / 2 ^ 24), UInt8.ofNat (n / 2 ^ 16), UInt8.ofNat (n / 2 ^ 8), UInt8.ofNat n]

/-- Eight flags in a byte, and so on. -/
def pack : List Bool → Bytes
  | a :: b :: c :: d :: e :: f :: g :: h :: rest => UInt8.ofNat ([a, b, c, d, e, f, g, h].foldl (fun n x => 2 * n + x.toNat) 0) :: pack rest
  | _ => []

/-- A message as bytes. -/
def encode : Req → Bytes
  | .keepalive => be4 0
  | .msg (.request r) => be4 13 ++ [6] ++ be4 r.index.toNat ++ be4 r.begin.toNat ++ be4 r.length.toNat
  | .msg (.piece i b n data) => be4 (9 + n.toNat) ++ [7] ++ be4 i.toNat ++ be4 b.toNat ++ data
  | .msg (.bitfield flags) => be4 (1 + flags.length / 8) ++ [5] ++ pack flags
  | .handshake h => [19] ++ h.proto ++ List.replicate 8 0 ++ h.infohash ++ h.peer_id

/-- Messages that can be encoded: a piece has as many bytes as it says and fits into a message; flags come in eights, and there are at most 1000. -/
def Good : Req → Prop
  | .keepalive => True
  | .msg (.request _) => True
  | .msg (.piece _ _ n data) => data.length = n.toNat ∧ n.toNat + 13 < 2 ^ 32
  | .msg (.bitfield flags) => flags.length % 8 = 0 ∧ flags.length ≤ 1000
  | .handshake _ => False

/-- A handshake. -/
def GoodHandshake (h : Handshake) : Prop := h.proto.length = 19 ∧ h.infohash.length = 20 ∧ h.peer_id.length = 20
end Che.Spec.Peer
