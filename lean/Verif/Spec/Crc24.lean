/-
Specification of CRC-24, transcribed from the C code in RFC 4880 section 6.1:

    #define CRC24_INIT 0xB704CEL
    #define CRC24_POLY 0x1864CFBL
    crc = CRC24_INIT;
    while (len--) {
        crc ^= (*octets++) << 16;
        for (i = 0; i < 8; i++) {
            crc <<= 1;
            if (crc & 0x1000000) crc ^= CRC24_POLY;
        }
    }
    return crc & 0xFFFFFFL;
-/
namespace Pgp.Spec

def crcBit (c : Nat) : Nat :=
  let c := c <<< 1
  if c &&& 0x1000000 ≠ 0 then c ^^^ 0x1864CFB else c

def crcBits : Nat → Nat → Nat
  | 0, c => c
  | n + 1, c => crcBits n (crcBit c)

def crcOctet (c : Nat) (x : UInt8) : Nat := crcBits 8 (c ^^^ (x.toNat <<< 16))

def rfcCrc24 (data : List UInt8) : Nat := data.foldl crcOctet 0xB704CE &&& 0xFFFFFF

/-- The bits of an octet, most significant first. -/
def octetBits (x : UInt8) : List Bool := (List.range 8).map fun i => x.toNat.testBit (7 - i)

/-- The bits of a message in transmission order. -/
def msgBits (data : List UInt8) : List Bool := data.flatMap octetBits

end Pgp.Spec
