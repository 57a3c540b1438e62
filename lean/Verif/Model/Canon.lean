import Verif.Model.Text
/-
Model of the canonical text form of messages (pgp/message.py).
-/
namespace Pgp

/-- `INCOMPLETE_CRLF.sub(b'\r\n', data)` with the pattern `(\r[^\n]|[^\r]\n)` (pgp/message.py:33 and :187): scanning from the left, a
match takes two octets and is replaced by CR LF, otherwise one octet is kept. -/
def canonSub : Bytes → Bytes
  | [] => []
  | [x] => [x]
  | x :: y :: rest =>
    if (x = 13 ∧ y ≠ 10) ∨ (x ≠ 13 ∧ y = 10) then 13 :: 10 :: canonSub rest else x :: canonSub (y :: rest)

/-- `TextMessage.to_signable_data` (pgp/message.py:184-188); signature type 1 is the canonical text signature
(packets/constants.py SIGNATURE_OF_A_CANONICAL_TEXT_DOCUMENT). -/
def textSignable (data : List Char) (signatureType : Nat) : Bytes :=
  if signatureType = 1 then canonSub (utf8Encode data) else utf8Encode data

/-- `LiteralMessage.to_signable_data` (pgp/message.py:166-167), inherited by `BinaryMessage`. -/
def binarySignable (data : Bytes) (_signatureType : Nat) : Bytes := data

end Pgp
