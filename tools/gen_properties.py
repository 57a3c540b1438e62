# Writes ../properties.jsonl from the table below (no /repo code is run).
import json, os
P = []
def p(id, title, statement, quantifier, why, *anchors):
    P.append(dict(id=id, title=title, statement=statement, quantifier=quantifier,
                  why_tests_cant=why, anchors=list(anchors)))

p("C01","Fixed-width integers survive serialisation",
 "Writing a non-negative integer below 2^16 / 2^32 / 2^64 with the 2-, 4- or 8-octet writer and reading it back gives the same integer, the number of octets written is always exactly 2, 4 or 8, and any two (four) octets read and written back are unchanged. An integer at or above 2^16 handed to the 2-octet writer is silently reduced modulo 2^16 and so on for the other widths.",
 "every integer below the width's bound, every octet string of the width, any surrounding data and offset",
 "2^64 inputs; a test samples a few boundary values.",
 "pgp/utils.py:byte_to_int,short_to_int,long_to_int","pgp/utils.py:int_to_2byte,int_to_4byte,int_to_8byte")
p("C02","Big-endian integer conversion is a bijection up to leading zeros",
 "Reading an n-octet window gives a value below 256^n, distinct windows of the same length give distinct values, and writing the value of a positive integer and reading it back is the identity.",
 "every octet string of every length, every positive integer of any size",
 "Unbounded sizes.",
 "pgp/utils.py:bytes_to_int","pgp/utils.py:int_to_bytes")
p("C03","Multi-precision integers round-trip in sequence",
 "For every list of non-negative integers below the format's size limit (fewer than 2^16 bits), serialising them as consecutive MPIs, followed by any other data, and then reading that many MPIs returns exactly the integers and an offset that points at the following data.",
 "every list of integers below 2^65528, any trailing octets, any prefix before the first MPI",
 "Unbounded magnitude and list length.",
 "pgp/utils.py:int_to_mpi,mpi_to_int,mpi_length,bits_required,bytes_required")
p("C04","MPI encoding is canonical",
 "The MPI written for an integer has the exact bit length in its header and no leading zero octet, so two different encodings never denote the same written integer. (True under exact logarithms; the floating-point logarithm the code uses breaks it for e.g. 2^49-1.)",
 "every non-negative integer",
 "Fails only near large powers of two, which sampling does not hit.",
 "pgp/utils.py:int_to_mpi,bits_required")
p("C05","New-format lengths round-trip",
 "For every length from 0 to 2^32-1, the length octets written for a new-format packet header, followed by any data, are read back as exactly that length, as non-partial, and the reader's offset ends immediately after them.",
 "every length 0..2^32-1, any following data, any offset",
 "2^32 values times arbitrary context.",
 "pgp/utils.py:new_packet_length,new_packet_length_to_bytes")
p("C06","New-format length encoding is shortest and rejects what it cannot express",
 "The writer uses one octet below 192, two below 8384, five up to 2^32-1; no other definite encoding accepted by the reader for that value is shorter; above 2^32-1 it raises unless partial lengths are allowed, in which case it writes exactly a 2^30 partial-length octet.",
 "every length (unbounded)",
 "Boundaries and unbounded range.",
 "pgp/utils.py:new_packet_length_to_bytes")
p("C07","Old-format lengths round-trip below 2^24 and are indeterminate above",
 "Below 2^24 the old-format length octets and length-type read back as the same length; at or above 2^24 the writer emits no octets and the indeterminate type, and the reader then takes everything up to the end of the data as the body.",
 "every length, any following data",
 "Unbounded.",
 "pgp/utils.py:old_packet_length,old_packet_length_to_bytes")
p("C08","Length readers always advance and agree between file and memory input",
 "Whenever a packet length is read successfully the offset advances by 1 to 5 octets (new), 0 to 4 (old), never beyond the data, and reading the same octets from a file object gives the same length and partial flag, except that the old-format indeterminate length, which means everything up to the end of the data in memory, raises ValueError when read from a file object.",
 "every octet string and offset",
 "All octet strings.",
 "pgp/utils.py:new_packet_length,new_packet_length_from_stream,old_packet_length,old_packet_length_from_stream")
p("C09","A serialised packet parses back to the same type and content",
 "Serialising a packet (new or old header format) and parsing the result yields the same packet type, header format and content octets, and the parser stops exactly at the end of the packet whatever follows.",
 "every packet type 0..63 (new) / 0..15 (old), every content of any length the format can express, any following data",
 "Contents of unbounded length; fails on the empty content, which tests do not exercise.",
 "pgp/packets/packets.py:Packet.__bytes__,packet_from_packet_data")
p("C10","A concatenation of packets parses to the same packets in order",
 "Parsing the concatenation of serialised packets with the whole-buffer parser gives the same packets in the same order and consumes all octets.",
 "every finite list of packets",
 "Unbounded lists.",
 "pgp/packets/parsers.py:parse_binary_packet_data","pgp/packets/packets.py:packet_from_packet_data")
p("C11","Parsing terminates on every input and never invents octets",
 "On any octet string the packet parser either raises or returns in at most as many steps as there are octets; each parsed packet consumes at least one octet; every parsed body is made of octets taken from the input, in order.",
 "every octet string (including hostile ones)",
 "All inputs; termination is not observable by a finite test.",
 "pgp/packets/parsers.py:parse_binary_packet_data","pgp/packets/packets.py:packet_from_packet_data")
p("C12","Partial-length bodies are reassembled",
 "A body split into any sequence of partial-length chunks followed by a final definite chunk is parsed into the concatenation of the chunks.",
 "every chunking of every body",
 "Unbounded number of chunks; the stream parser gets it wrong.",
 "pgp/packets/packets.py:packet_from_packet_data,packet_from_packet_stream")
p("C13","Stream and in-memory parsing agree",
 "Parsing a packet from a file object gives the same result as parsing it from memory when the packet has a definite length and its first octet is non-zero.",
 "every octet string whose first packet has definite length",
 "All inputs.",
 "pgp/packets/packets.py:packet_from_packet_stream,packet_from_packet_data")
p("C14","Serialising a packet always terminates",
 "Converting any packet object to octets finishes. (False: a data-bearing packet with more than 2^32-1 octets of content loops forever.)",
 "every packet content of any length",
 "Non-termination and multi-gigabyte contents are out of reach of unit tests.",
 "pgp/packets/packets.py:Packet.__bytes__")
p("C15","The armor checksum is the CRC-24 of the specification",
 "The table-driven checksum of any octet string equals the bit-by-bit CRC-24 of RFC 4880 section 6.1 (polynomial 0x1864CFB, initial value 0xB704CE), is below 2^24, and can be computed incrementally over any split of the data.",
 "every octet string of any length, every split",
 "All strings.",
 "pgp/crc24.py:crc24,CRC24_TABLE")
p("C16","The checksum detects every error burst of at most 24 bits",
 "Two messages of the same length that differ only inside one window of three consecutive octets have different checksums; in particular any single corrupted octet is detected.",
 "every message, every position, every corruption of up to three adjacent octets",
 "Messages times error patterns is unbounded.",
 "pgp/crc24.py:crc24")
p("C17","ASCII armor round-trips",
 "Armoring any data with version and comment headers and dearmoring the text gives back the same type, data, version, comment (and, for multi-part messages, part numbers).",
 "every octet string and every header text without line breaks",
 "All data lengths relative to the 72-column wrapping.",
 "pgp/armor.py:ASCIIArmor.from_ascii,ASCIIArmor.__str__")
p("C18","Armor with a wrong checksum is rejected",
 "Whenever dearmoring accepts a text that has a checksum line, the checksum equals the CRC-24 of the returned data; a text whose checksum does not match is rejected.",
 "every text",
 "All texts.",
 "pgp/armor.py:ASCIIArmor.from_ascii")
p("C19","The S2K iteration count code is exact",
 "Each of the 256 count codes decodes to a value between 1024 and 65011712 that encodes back to the same code, decoding is strictly increasing, and encoding a number succeeds exactly when it is one of those 256 values.",
 "all codes and all natural numbers",
 "The accept set is claimed over all integers.",
 "pgp/utils.py:s2k_count_to_int,int_to_s2k_count")
p("C20","S2K derivation matches the specification's octet stream",
 "The derived session key is the first n octets (n the key length RFC 4880 / RFC 5581 give the cipher) of hash(0^0||S), hash(0^1||S), ... where S is salt||passphrase repeated and cut to the count (at least one full copy for the non-iterated kinds), it always has exactly the key length, and depends only on the arguments.",
 "every passphrase, salt, count, hash with a positive digest length and cipher key length",
 "Unbounded passphrases and counts.",
 "pgp/s2k.py:SimpleS2K.to_key,SaltedS2K.to_key,IteratedAndSaltedS2K.to_key")
p("C21","S2K specifiers survive serialisation",
 "Serialising a simple, salted or iterated S2K specifier, followed by any data, and parsing it gives back the same specifier and an offset just past it; the GnuPG extension cannot be serialised at all.",
 "every hash code, every 8-octet salt, every count code, any following data",
 "All salts/following data.",
 "pgp/s2k.py:parse_s2k_bytes,SimpleS2K,SaltedS2K,IteratedAndSaltedS2K,GnuPGS2K")
p("C22","Public key packets survive serialisation",
 "Serialising any RSA, DSA or ElGamal public key of version 2, 3 or 4 and parsing it gives a key with the same version, creation time, algorithm, expiry days (v2/v3) and integers.",
 "every creation time below 2^32, expiry below 2^16 days, all key integers below 2^65528",
 "Unbounded key sizes.",
 "pgp/packets/packets.py:PublicKeyPacket._parse_public_key_content,PublicKeyPacket.public_content")
p("C23","A v4 fingerprint identifies the key material",
 "The v4 fingerprint is the hash of 0x99, the two-octet length and the public content; two v4 keys whose hashed octets coincide have equal creation time, algorithm and integers, so with a collision-free hash equal fingerprints mean equal keys. v3 keys have no computable fingerprint.",
 "every pair of v4 public keys with content below 2^16 octets",
 "Quantifies over all pairs.",
 "pgp/utils.py:key_packet_fingerprint,hash_key","pgp/packets/packets.py:PublicKeyPacket.fingerprint,key_id")
p("C24","Signature subpackets survive serialisation",
 "Serialising a signature subpacket area and parsing it back gives the same list of subpackets with the same types, critical bits, hashed flags and values, for every subpacket kind whose reader and writer agree.",
 "every list of subpackets, every value of each kind",
 "Unbounded lists and contents.",
 "pgp/packets/signature_subpackets.py:signature_subpacket_from_data,SignatureSubpacket.__bytes__")
p("C25","v4 signature packets survive serialisation",
 "Serialising a v4 signature packet and parsing its content gives the same type, algorithms, hashed and unhashed subpackets, hash prefix and signature integers.",
 "every v4 signature packet with subpacket areas below 2^16 octets",
 "Unbounded subpackets and integers.",
 "pgp/packets/packets.py:SignaturePacket.from_packet_content,SignaturePacket.content")
p("C26","Session key packets survive serialisation",
 "Public-key encrypted session key packets and symmetric-key encrypted session key packets serialise and parse back to the same key id, algorithm, integers, S2K specifier and encrypted key; one-pass signature packets do too.",
 "every key id, algorithm, integer and encrypted key",
 "Unbounded values; the one-pass reader silently loses half of the key id.",
 "pgp/packets/packets.py:PublicKeyEncryptedSessionKeyPacket,SymmetricKeyEncryptedSessionKeyPacket,OnePassSignaturePacket")
p("C27","What is hashed for a signature determines what was signed",
 "The octets fed to the hash when signing determine the signature version, type, algorithms and hashed subpacket data and the signed key/user-id octets, so two different (target, signature-metadata) pairs of the same kind never hash the same octets; unhashed subpackets have no influence.",
 "every pair of targets and signature metadata",
 "Injectivity over all pairs.",
 "pgp/utils.py:hash_packet_for_signature,hash_key,hash_user_data")
p("C28","What is signed verifies",
 "For every key and message, the values produced by signing a digest are accepted when verifying the same digest with the corresponding public key, for RSA and DSA, given the primitives' own sign/verify correctness; and any digest the verifier hands to the primitive is the one the signer handed to it.",
 "every digest, hash algorithm and key",
 "All digests and key sizes.",
 "pgp/utils.py:sign_hash,verify_hash,get_signature_values")
p("C29","Integrity-protected data decrypts to what was encrypted",
 "Encrypting packets with integrity protection and decrypting with the same key and cipher returns exactly the original octets.",
 "every plaintext, key, cipher block size and random prefix",
 "Every length relative to the block size.",
 "pgp/message.py:SymmetricallyEncryptedMessageData.encrypt,decrypt")
p("C30","Modified integrity-protected data is rejected",
 "Decryption of integrity-protected data succeeds only if the decrypted packets end in an MDC packet of twenty octets whose content is the SHA-1 of the prefix and all decrypted octets but the last twenty (in the usual encoding: of everything before the digest); otherwise it raises, and nothing is returned. Any accepted change of the data changes the hashed octets.",
 "every ciphertext",
 "All ciphertexts.",
 "pgp/message.py:SymmetricallyEncryptedMessageData.decrypt")
p("C31","Cipher modes are mutually inverse",
 "For the ECB, CBC, CFB, OFB and CTR modes of the pure-python cipher wrapper, decrypting with a fresh object what a fresh object with the same key and IV encrypted returns the plaintext, for any block cipher whose block decryption inverts its block encryption; and splitting the data over several calls on block boundaries gives the same output.",
 "every plaintext, IV, segment size and chunking",
 "Unbounded data and chunking.",
 "pgp/cipher/base.py:_InternalObj.encrypt,_InternalObj.decrypt")
p("C32","IDEA decrypts what it encrypts",
 "For every 128-bit key and every 64-bit block, decrypting the encryption gives the block back, and ciphertext blocks are always eight octets.",
 "2^128 keys times 2^64 blocks",
 "Key space out of reach.",
 "pgp/cipher/aidea.py:IDEA")
p("C33","Keyring operations behave like operations on a list of keys",
 "Adding a key to a keyring file appends it and leaves other keys alone; deleting a key removes that key only; updating replaces that key only; a second add of the same key is refused. (Deletion and update in fact drop everything after the key; duplicates are never refused.)",
 "every keyring content and every key",
 "Histories of file operations.",
 "pgp/db/gpg.py:KeyringResource.add_transferrable_key,update_transferrable_key,delete_transferrable_key,get_transferrable_key")
p("C34","The key database stores secret keys only in secret keyrings",
 "Adding a transferable secret key to the database puts it into a secret resource. (False.)",
 "every database configuration and key",
 "All configurations.",
 "pgp/db/gpg.py:GPGDatabase.add_key")
p("C35","Key validation accepts exactly the grammar it implements",
 "Validating a packet sequence as a transferable key accepts exactly the sequences: primary key; direct key signatures (0x1f) and revocations (0x20); user ids each followed by certifications (0x10-0x13, 0x30); user attributes each followed by certifications; subkeys (version 4 on) each followed by one or more binding signatures (0x18); trust packets only after a signature or another trust packet, and no 0x1f after one. In particular it never accepts a sequence that does not start with a primary key, has a second one, mixes secret and public, or has packets of other kinds. (Subkey revocations 0x28 are never accepted.)",
 "every finite packet sequence",
 "Language equivalence.",
 "pgp/transferrable_keys.py:validate_transferrable_key")
p("C36","A key exported and re-imported is the same key",
 "Building a transferable key from packets and converting it back to packets gives the same packets when there is no trust packet; with a trust packet everything after it is dropped.",
 "every accepted packet sequence",
 "Unbounded sequences.",
 "pgp/transferrable_keys.py:TransferablePublicKey.from_packets,to_packets")
p("C37","Message recognition follows the grammar",
 "A packet sequence is turned into a message exactly if it is one by the library's grammar (literal or compressed packet; session keys and integrity protected data; one-pass packets, one single-packet message and signatures), and as that message; anything else raises. Measured against RFC 4880 the grammar is wrong: signature-first messages, unprotected encrypted data and signed encrypted messages never open, trailing packets and missing signatures go unnoticed.",
 "every packet sequence",
 "All sequences.",
 "pgp/message.py:open_pgp_message_from_packets,EncryptedMessageWrapper.from_packets,SignedMessageWrapper.from_packets")
p("C38","A message opens iff one of the offered keys/passphrases opens it",
 "Opening an encrypted message with a key or passphrase tries all session key packets in order and uses the first that yields data; it fails iff none works. (Only public-key session keys refused with ValueError are skipped; a passphrase session key is never skipped, and keys of the other kind raise.)",
 "every list of session keys and every outcome of the primitives",
 "All combinations.",
 "pgp/message.py:EncryptedMessageWrapper.get_message")
p("C39","Merging two copies of a key loses nothing",
 "Merging a key with another copy of itself keeps every user id and signature of both. (False: the merge raises or yields None for the lists.)",
 "every pair of keys",
 "All pairs.",
 "pgp/merge.py:merge_key,merge,merge_sigpairs")
p("C40","Signature acceptance rules",
 "The signature validity rules reject a signature dated before its key, in the future or by a key dated in the future, and in strict mode one by an expired or revoked key; every other one is accepted, with flags telling whether the key has expired or been revoked; an expired signature is rejected; the public entry points apply these rules. (False in part: the signature's own expiration is never considered, check_signature always raises, validate_signature accepts nothing but revocations of certifications, and those without verifying them.)",
 "every key and signature times, every current time, both strictness modes",
 "All combinations of times.",
 "pgp/signature_verification.py:check_signature_values,check_signature,check_revocation_keys","pgp/validation.py")
p("C41","A locked key is not usable and unlocking is undone",
 "A secret key's private values are present exactly while it is unlocked; after leaving the unlocked context (normally or by exception) the key is locked again; a failing unlock leaves nothing unlocked. (The last is false for keys with subkeys.)",
 "every sequence of lock/unlock operations and failures",
 "Histories and exception points.",
 "pgp/transferrable_keys.py:BaseSecretKey.unlock,lock,TransferableSecretKey.unlock,lock","pgp/context_managers.py")
p("C42","Preferences come from the most recent self-signature",
 "The self-signature consulted for key preferences and flags is the most recent one. (False: it is the last listed, whatever its date; true of a key whose self-signatures are listed in order of date.)",
 "every list of self-signatures",
 "All orders.",
 "pgp/transferrable_keys.py:SignedMixin.get_most_recent_selfsig")
p("C43","Regular-expression subpackets are validated exactly",
 "The validator accepts a pattern iff it belongs to the documented grammar, and terminates on every pattern.",
 "every string",
 "All strings.",
 "pgp/regex.py")
p("C44","Hex conversion is exact",
 "Converting n octets to hex gives 2n upper-case digits which convert back to the same octets; converting a shorter hex string to n octets pads with leading zeros and a longer one keeps the last n octets.",
 "every octet string, every hex string, every width",
 "All strings.",
 "pgp/utils.py:hex_to_bytes,bytearray_to_hex,int_to_hex")
p("C45","Session key block: checksum verified and key recovered",
 "Recovering the session key from the decrypted session key block succeeds exactly when the trailing two octets are the sum of the key octets mod 65536 and returns the algorithm and key that were put in; PKCS#1 padding is removed exactly.",
 "every key, algorithm and padding",
 "All keys and block contents.",
 "pgp/packets/packets.py:PublicKeyEncryptedSessionKeyPacket.get_session_key,PKCS115_ElGamal_Cipher")
p("C46","Canonical text form is faithful",
 "Two texts that differ other than in line ending style have different canonical signed data. (False: the line-ending regex consumes the neighbouring character.)",
 "every pair of texts",
 "All pairs.",
 "pgp/message.py:TextMessage.to_signable_data")
p("C47","Compressed data is complete",
 "Feeding data to the compression wrapper in pieces and flushing gives a stream that decompresses to the concatenation of the pieces. (False for more than one piece with the zlib wrapper.)",
 "every sequence of pieces",
 "All chunkings.",
 "pgp/utils.py:ZlibCompressor,DeflateCompressor,get_compression_instance","pgp/packets/packets.py:CompressedDataPacket")
p("C48","The message cipher is acceptable to all recipients",
 "The symmetric cipher chosen when encrypting is in every recipient's preference list and is the first such of the sender's preferences; integrity protection is used if forced, else not if disabled, else exactly if all recipients support it. (The preference part is false: only the first preference is ever tried.)",
 "every list of recipients and preferences",
 "All combinations.",
 "pgp/commands/gpg/encrypt.py:pubkey_encrypt_message")
p("C49","Unknown critical subpackets invalidate a signature",
 "Reading a signature (pgpdump based parser) with an unrecognised critical subpacket raises; an unrecognised non-critical one is ignored. (The first part holds for subpacket types; not for critical notations with undefined flags or invalid critical regular expressions. The second part holds outside the hashed area only: a hashed unrecognised subpacket makes the reading raise.)",
 "every list of subpackets",
 "All lists, types and positions.",
 "pgp/parse.py:parse_signature_subpacket,parse_signature_packet")
p("C50","Secret key packets survive serialisation and locking",
 "Serialising a secret key packet and parsing it back gives the same packet; decrypting the private portion with the right passphrase gives exactly the private integers that were encrypted; a portion whose hash does not match is rejected; a packet made from private numbers and a passphrase is written with these numbers encrypted. (The last is never so: writing raises. Serialisation fails for an empty private portion and GnuPG specifiers; unprotected, checksum protected and version 2/3 keys cannot be read or decrypted.)",
 "every key, passphrase, cipher and private portion",
 "Unbounded integers, all ciphers and passphrases.",
 "pgp/packets/packets.py:SecretKeyPacket","pgp/transferrable_keys.py:BaseSecretKey.unlock")
p("C51","User attribute (image) subpackets survive serialisation",
 "Serialising an image attribute and parsing gives the same image and encoding, with lists of attributes recovered in order; headers not of the documented form are rejected.",
 "every image and every list",
 "Unbounded.",
 "pgp/packets/user_attribute_subpackets.py")
p("C52","Signature attribute accessors agree with the subpackets",
 "Setting an attribute on a signature and reading it back gives the value set, and does not disturb other attributes; serialisation reflects it.",
 "every signature state and every sequence of assignments",
 "All histories.",
 "pgp/signature.py:BaseSignature")
p("C53","Hidden recipients stay hidden",
 "Encrypting to a key with its id hidden does not put the key id into the output. (False.)",
 "every key and message",
 "All keys.",
 "pgp/message.py:PublicKeySessionKey.__init__,to_packet")
p("C54","Literal data survives",
 "A literal data packet built from data, filename, format and time serialises and parses back to the same values, for file names of at most 255 octets and ASCII.",
 "every data, filename and time",
 "Unbounded.",
 "pgp/packets/packets.py:LiteralDataPacket")
p("C55","The keyring lock excludes other holders",
 "While the lock is held by one owner no other obtains it, nested acquisition included. (An inner release in fact releases the outer lock.)",
 "every interleaving of lock/unlock by any number of processes",
 "Interleavings.",
 "pgp/db/gpg.py:Lock")
p("C56","Resource type detection",
 "The keyring resource chosen for a URL/file is determined by its prefix or magic octets as documented. (Prefix stripping and empty files are handled wrongly.)",
 "every resource name and file content",
 "All names and contents.",
 "pgp/db/gpg.py:get_resource")
p("C57","A keyserver listing is read as it was written",
 "Reading a keyserver's machine-readable index gives exactly one result per key line, in order, each with its own user ids in order and all fields (percent-encoding undone, empty trailing fields optional, unknown lines skipped). (False where a user id has no creation date: the whole listing fails.)",
 "every list of keys and user ids and every way of writing the listing",
 "Unbounded lists, all texts and all encodings.",
 "pgp/keyserver/hkp.py:HKPKeyserverClient._read_mr","pgp/keyserver/hkp.py:HKPResult","pgp/keyserver/hkp.py:HKPUserIdResult")
p("C58","User id parsing terminates and recovers well-formed ids",
 "Parsing a user id of the form 'Name (comment) <address>' returns the components, terminates on any string and never reads past the end.",
 "every string",
 "All strings.",
 "pgp/user_id.py")
p("C59","Only secret key armor carries secret keys",
 "Serialising a secret key to text labels it as a private key block. (False.)",
 "every key",
 "All keys.",
 "pgp/shortcuts.py:serialize_key","pgp/shortcuts.py:read_key","pgp/keyserver/hkp.py:HKPKeyserverClient.submit")
p("C60","Hashed subpackets come only from the hashed area",
 "Every subpacket that a parsed signature reports as hashed lies completely inside the octets covered by the hashed area length. (False: a subpacket may start in the area and extend past it.)",
 "every signature packet content",
 "All contents and lengths.",
 "pgp/packets/packets.py:SignaturePacket.from_packet_content")
p("C61","Only the recipient can recover an ElGamal-encrypted session key",
 "Recovering the session key from an ElGamal-encrypted session key needs the secret key. (False: the ephemeral exponent is always 0, so the encryption is the padded key itself.)",
 "every key and session key",
 "All keys.",
 "pgp/packets/packets.py:PKCS115_ElGamal_Cipher.encrypt")
p("C62","Passphrase-encrypted session keys are recovered",
 "A session key stored under a passphrase is recovered, with its cipher, by the same passphrase after serialising and parsing the packet; without a stored key the passphrase key itself is the session key.",
 "every passphrase, S2K specifier, cipher and session key",
 "All keys and passphrases.",
 "pgp/message.py:SymmetricSessionKey","pgp/packets/packets.py:SymmetricKeyEncryptedSessionKeyPacket")
p("C63","A crash while a keyring is written does not lose keys",
 "If the process dies at any point of an operation that changes a keyring, the file afterwards holds the old keys or the new ones. (False: the file is truncated before it is rewritten.)",
 "every keyring content, every history of operations before, every operation, every crash point, every way a write may be torn",
 "Tests do not stop the process between two system calls.",
 "pgp/db/gpg.py:Keyring")
p("C64","Small packets survive serialisation",
 "Compressed data, integrity protected data, user id, comment, modification detection code, GnuPG control and trust packets parse back to the same values after serialisation, and a parsed packet serialises to the octets it came from. (The second half is false for user ids that are not UTF-8 and for trust packets.)",
 "every packet value and every packet content",
 "All octet strings.",
 "pgp/packets/packets.py:TrustPacket","pgp/packets/packets.py:UserIDPacket","pgp/packets/packets.py:CompressedDataPacket","pgp/packets/packets.py:GpgControlPacket")
p("C65","A message goes to exactly the named recipients",
 "The encryption command encrypts to exactly the recipients the user named (groups expanded) plus the always-encrypt-to ones, and for each uses an unrevoked encryption key. (False as soon as a group is defined.)",
 "every list of recipients, groups and keys",
 "All configurations.",
 "pgp/commands/gpg/recipient_helper.py:RecipientHelper")
p("C66","Messages survive being written and read",
 "Turning a message (literal, compressed, encrypted or signed) into packets and octets and reading these gives the same message. (Not for messages with version 3 signatures, default session keys, nested signatures or signed encrypted content.)",
 "every message, signature list and session key list",
 "Unbounded nesting, sizes and contents.",
 "pgp/message.py:to_packets,open_pgp_message_from_packets")
p("C67","A message encrypted with a passphrase is opened by it",
 "Encrypting a message with a passphrase, serialising, parsing and opening with the same passphrase gives the original message, end to end.",
 "every message, passphrase, cipher, salt, session key and IV",
 "Unbounded and depends on every octet.",
 "pgp/message.py:BaseMessage.symmetric_encrypt,EncryptedMessageWrapper.get_message")

p("C68","A key's expiration time is its creation time plus the period in its self-signature",
 "A key whose chosen self-signature gives a period of validity is reported to expire that long after its creation; a key without one never expires. (False: with one self-signature the period is dropped; with several it is counted from another signature's date.)",
 "every key and every list of self-signatures",
 "All lists and dates.",
 "pgp/transferrable_keys.py:SignedMixin.expiration_time,BasePublicKey")
p("C69","A revoked signature is reported as revoked and others are not",
 "A certification or binding is reported as revoked iff a later matching revocation by the same issuer is attached to the same part of the key.",
 "every list of signatures",
 "All lists and dates.",
 "pgp/signature.py:BaseSignature.revoked,get_revocation_signature","pgp/transferrable_keys.py")
p("C70","A signature is reported expired exactly after its expiration time",
 "At any moment a signature with a nonzero period of validity is reported as expired iff its creation time plus the period lies strictly in the past; others are never reported as expired.",
 "every signature and every moment",
 "All dates.",
 "pgp/signature.py:BaseSignature.expired,expiration_time")

p("C71","The public part of a secret key contains no private value",
 "The public key made from a secret key, locked or unlocked, carries no private value and its octets do not depend on any. (The octets do not; but the object made from an unlocked RSA key carries a secret prime.)",
 "every secret key in every lock state",
 "All private values.",
 "pgp/transferrable_keys.py:BaseSecretKey.to_public_key,to_public_key_packet")

p("C72","Fields reported as hashed come from the hashed area",
 "Whatever the pgpdump based parser lists as covered by the signature's hash is what the hashed subpackets alone say: adding, removing or changing unhashed subpackets does not alter it. (False when an unhashed subpacket comes first: its value is then reported as hashed.)",
 "every signature and every list of hashed and unhashed subpackets",
 "All lists and orders.",
 "pgp/parse.py:parse_signature_packet,parse_signature_subpacket")
p("C73","A self-signature is recognised",
 "The pgpdump based parser marks a signature as a self-signature exactly if its issuer is one of the key's ids. (True for version 2 and 3; in version 4 only the first half of the issuer id is compared, so with full ids none is ever recognised.)",
 "every signature and list of ids",
 "All ids and subpackets.",
 "pgp/parse.py:parse_signature_packet,parse_signature_subpacket")
p("C74","The order check accepts exactly the key grammar",
 "The pgpdump based parser accepts a packet sequence as a public key exactly if it is a key packet, direct signatures, certified user ids, certified attributes, and bound subkeys, each with at most one revocation (none for version 3).",
 "every sequence of packets",
 "Unbounded sequences.",
 "pgp/parse.py:validate_transferrable_public_key")
p("C75","A stream of keys is split losslessly",
 "Reading a stream of keys gives exactly the well formed keys in it, in order, with all their packets, whatever else is in the stream. (True for streams of well formed keys; a bad key or an unreadable packet hides all the keys after it, an empty stream raises, and with the parser's own key reader no key is ever returned.)",
 "every stream of packets and reader errors",
 "Unbounded streams.",
 "pgp/parse.py:parse,skip_to_next_key,parse_key")
p("C76","Images of a user attribute are read exactly",
 "The pgpdump based parser reads each image subpacket of a user attribute with exactly its octets, and always comes to an end. (True for a single subpacket; when another follows its first octet is taken for the end of the image.)",
 "every attribute packet",
 "All images and lengths.",
 "pgp/parse.py:parse_user_attribute_subpackets")
p("C77","Parsed signature fields are what the subpackets say",
 "Each field of a signature read by the pgpdump based parser is what the last subpacket of the corresponding type says, and is absent if there is none. (Signatures marked local cannot be read; a signature target is never reported.)",
 "every list of subpackets that can be read",
 "All lists of subpackets.",
 "pgp/parse.py:parse_signature_packet,parse_signature_subpacket")

p("C78","A passphrase typed at the console is the one returned",
 "The console prompt returns a passphrase exactly when it was typed together with all confirmations asked for, reads nothing after it, never hangs, and gives back from its cache exactly what was last entered for that id unless it was cleared.",
 "every request, every sequence of typed lines, every history of calls",
 "Unbounded histories and typed input.",
 "pgp/pinentry/getpass.py:GetPassPinentry")
p("C79","What is asked of the gpg-agent arrives as given",
 "The command sent to the agent is one line whose words are the command, the options and the four texts, each of which unescapes to the UTF-8 text that was given; sending it never fails. (The text X is indistinguishable from no text.) The command to forget a passphrase names the cache id with the same word as the command that asked for it.",
 "every request and every Unicode text",
 "All texts.",
 "pgp/pinentry/gpg_agent.py:get_passphrase","pgp/pinentry/gpg_agent.py:send","pgp/pinentry/gpg_agent.py:clear_passphrase")
p("C80","The agent's answer is the passphrase returned",
 "When the agent sends a passphrase as data lines the caller gets exactly that passphrase, and when it reports an error the caller gets an error. (True for one data line with all non-ASCII octets escaped; raw UTF-8, split data and lines before the data give a wrong answer.)",
 "every passphrase, every division of the stream into pieces",
 "All passphrases and deliveries.",
 "pgp/pinentry/gpg_agent.py:get_response,get_passphrase")

p("C81","A message encrypted to public keys is opened by each recipient",
 "A message encrypted to any number of public keys, named or hidden, written and read back, is opened by each of the corresponding secret keys with the same message as result, and by no key that refuses the ciphertexts. (True for RSA keys unless a ciphertext begins with a zero octet; refuted for encrypt-only RSA keys, ElGamal keys listed after RSA keys, and hidden recipients alone.)",
 "every message that can be written, every list of recipients, all session keys and ciphertexts",
 "All messages, recipient lists and random choices.",
 "pgp/message.py:public_key_encrypt,PublicKeySessionKey,get_message","pgp/packets/packets.py:_get_key_and_cipher_algo,_get_encrypted_key","pgp/transferrable_keys.py:_get_key_obj")

p("C82","A received signature is written back octet for octet",
 "Parsing the octets of a version 4 signature packet and serialising the result gives back the same octets, so that forwarding a key or message does not invalidate the signatures in it.",
 "every version 4 signature packet: any subpackets with any contents and length forms, signatures embedded to any depth",
 "Unbounded packets and nesting; the loss only shows for contents the tests' authors did not think of.",
 "pgp/packets/signature_subpackets.py:signature_subpacket_from_data,SignatureSubpacket.__bytes__,from_subpacket_content,content","pgp/packets/packets.py:SignaturePacket.from_packet_content,SignaturePacket.content")

p("C83","A received key is written back octet for octet",
 "Reading the octets of a public key with read_key and writing the result gives back the same octets, so the key keeps its fingerprint and its signatures stay valid; what is exported can be read again.",
 "every public key file: any number of signatures, user ids, photos and subkeys, any packet header and length forms, any integers",
 "Unbounded files and forms; the tests round-trip a few keys made by one program, none with a photo exported in the default format.",
 "pgp/shortcuts.py:read_key,serialize_key","pgp/transferrable_keys.py:TransferablePublicKey.from_packets,to_packets","pgp/packets/packets.py:PublicKeyPacket.from_packet_content,content,UserIDPacket,UserAttributePacket,Packet.__bytes__")

p("C84","The list-valued attributes of a signature hold what was assigned",
 "After assigning a list of notations, regular expressions, embedded signatures or revocation keys to a signature, reading the attribute gives exactly the items assigned, and every other attribute is unchanged; the trust depth and amount, the revocation reason and code and the parts of the issuer's user id read back as they were assigned.",
 "every signature object with any subpackets, every assigned list of any length, every order in which a set is iterated",
 "All lists, all earlier contents and all set iteration orders (which depend on randomised hashes).",
 "pgp/signature.py:notations,regular_expressions,embedded_signatures,revocation_keys,trust_amount,trust_depth,revocation_reason,revocation_code,issuer_user_name,issuer_user_email,issuer_user_comment,_add_subpacket,_remove_subpacket")

p("C85","The attributes of a received signature are those its octets state",
 "Reading the octets of a version 4 signature gives an object whose type, algorithms, times, issuers, preferences, key flags, notations, regular expressions, embedded signatures and other attributes are those RFC 4880 assigns to the subpackets present, with the first subpacket of a type deciding; an attribute that no subpacket states has no value; every signature whose subpackets are of the expected form is read.",
 "every version 4 signature: any subpackets in any order with any length form and any contents, signatures embedded to any depth",
 "Round-trip tests cannot see a reader and writer that agree on a wrong bit or type code; the space of subpacket lists is unbounded.",
 "pgp/packets/packets.py:SignaturePacket.from_packet_content","pgp/packets/signature_subpackets.py:signature_subpacket_from_data,from_subpacket_content","pgp/signature.py:BaseSignature.from_packet,_get_subpacket_values")

p("C86","The unhashed area cannot change what a signature says",
 "Octets that the signature does not cover (its unhashed subpackets) do not determine the attributes the signature object reports: what the signer stated is kept, and what the signer did not state cannot be added by others.",
 "every version 4 signature and every change of its unhashed area",
 "All signatures and all changes an attacker can make to octets that are not signed.",
 "pgp/signature.py:_get_subpackets,_get_subpacket_values,_get_creation_time,_get_signature_expiration_time","pgp/packets/packets.py:SignaturePacket.from_packet_content")

p("C87","Packet contents stand for what the standard says",
 "For every kind of packet other implementations write - session keys, one-pass signatures, literal and compressed data, integrity protected data, user ids and attributes, public and secret keys, old signatures, with their string-to-key specifiers - reading the octets laid out as in RFC 4880 gives the values stored there, and writing these values gives these octets.",
 "every value of every field of every packet kind, and every octet string laid out that way",
 "Round trips also hold for a reader and a writer that agree on another layout; the layout is about all contents.",
 "pgp/packets/packets.py:PublicKeyEncryptedSessionKeyPacket,SymmetricKeyEncryptedSessionKeyPacket,OnePassSignaturePacket,PublicKeyPacket,SecretKeyPacket,SignaturePacket,LiteralDataPacket,CompressedDataPacket,UserAttributePacket","pgp/s2k.py:parse_s2k_bytes")

p("C88","Keys and messages are read alike from text, octets and files, armored or not",
 "A key or message read from octets, from its armored text, from the octets of that text, or from a file holding any of these (LF or CRLF) is the same key or message, whether or not the caller says that the data is armored; a key written to a file armored or not is read back alike.",
 "every key and message, every armor header, both values of the armored flag, both line ends",
 "The detection must not misfire for any content; tests read the forms they know.",
 "pgp/shortcuts.py:read_key,read_key_file,read_message,read_message_file,serialize_key,write_key_file","pgp/armor.py:is_armor,ASCIIArmor.from_ascii","pgp/packets/parsers.py:parse_ascii_packet_data")

p("C89","The key database finds exactly the keys its stores hold",
  "After any history of additions, deletions and updates through the database, the outcome of each operation is that of the same operation on the list of keys of the first store that is not secret; a search by fingerprint or key id returns exactly the stored keys with that fingerprint or id, a search by user id exactly the stored keys of which some user id contains the text regardless of case; asking for nothing finds nothing; a key that was added is found; registering a file twice yields the same resource.",
  "all lists of stores with any keys, all histories of operations with keys of any class, all questions",
  "tests use one store with a few keys; the claim ranges over all histories and all coincidences of ids",
  "pgp/db/gpg.py:GPGDatabase.register_resource", "pgp/db/gpg.py:GPGDatabase.add_key", "pgp/db/gpg.py:GPGDatabase.delete_key", "pgp/db/gpg.py:GPGDatabase.update_key", "pgp/db/gpg.py:GPGDatabase.search", "pgp/db/gpg.py:GPGDatabase.keys")

p("C90","Editing one part of a user id keeps the other two",
  "Setting the name, the e-mail address or the comment of a user id object yields a user id whose attributes report the new value and the unchanged other two; an address that cannot be represented is refused.",
  "all user ids, all names, addresses and comments",
  "tests set a plain name once; the claim ranges over all texts, including those that mail syntax reserves, quotes or encodes",
  "pgp/transferrable_keys.py:UserID._make_user_id", "pgp/transferrable_keys.py:UserID.user_name", "pgp/transferrable_keys.py:UserID.user_email", "pgp/transferrable_keys.py:UserID.user_comment", "pgp/user_id.py:parse_user_id")

p("C91","A received secret key is written back octet for octet",
  "Reading the octets of a secret key with read_key and writing the result gives back the same octets: cipher, string-to-key specifier, initial vector and encrypted part of every secret key and subkey included.",
  "every secret key file: any number of signatures, user ids, photos and secret subkeys, any protection, any packet header form",
  "Unbounded files and every combination of protections; tests read a few keys written by one program.",
  "pgp/shortcuts.py:read_key,serialize_key","pgp/packets/packets.py:SecretKeyPacket.from_packet_content,content","pgp/transferrable_keys.py:TransferableSecretKey.from_packets,to_packets,to_public_key")

p("C92","Packets compare equal exactly if they are the same",
  "`a == b` of two packets read by parsers.parse_binary_packet_data never raises and is true exactly if header form, packet type and content are the same; it is symmetric and transitive.",
  "every pair of packets of every type, with any content",
  "Pairs of unbounded contents; the tests compare a handful of packets with copies of themselves.",
  "pgp/packets/packets.py:Packet.__eq__,SignaturePacket.__eq__,OnePassSignaturePacket.__eq__,PublicKeyPacket.__eq__,SecretKeyPacket.__eq__","pgp/s2k.py:SimpleS2K.__eq__,GnuPGS2K.__eq__","pgp/packets/signature_subpackets.py:SignatureSubpacket.__eq__,__hash__","pgp/packets/user_attribute_subpackets.py:UserAttributeSubpacket.__eq__")

p("C93","A key's size, key id and key grip are those of its numbers",
  "For a key object, bit_length is the number of binary digits of its modulus (RSA) or prime; key_id is, up to version 3, the low 64 bits of that number, and from version 4 on the last sixteen digits of the fingerprint, in upper case hexadecimal; keygrip is the SHA-1 of an expression that no other key material has, so two keys have the same key grip exactly if their numbers are the same, whatever their versions, times and validity periods.",
  "every version, algorithm, creation time and all numbers of the key material",
  "Unbounded integers, and a floating-point logarithm in the size; tests look at a few keys of usual sizes, none of which is a power of two.",
  "pgp/transferrable_keys.py:BasePublicKey.bit_length,key_id,keygrip")

p("C94","An attribute assigned to a key reads back, and changes nothing else",
  "After assigning preferences, usage flags, key server, policy, primary user id or expiration time of a key, subkey, user id or user attribute, each attribute reads as the value last assigned to it and every other as before; only the current self-signature is changed, and the key that is written states and signs the new values.",
  "every key with any signatures, and every sequence of assignments",
  "All histories of assignments on all signature lists; tests read attributes of a few keys and assign none.",
  "pgp/transferrable_keys.py:__selfsig_attribute,get_most_recent_selfsig,BasePublicKey._set_expiration_time","pgp/signature.py:BaseSignature._set_key_expiration_time,_update_subpacket_values")

p("C95","A signed message arrives with signatures that verify, and only over its own content",
  "Signing a literal message with an unlocked key succeeds, and what the receiver reads from the octets sent is the same message with the same signatures, each of which verifies with its signer's key, also after encryption; a signature is accepted only if the key's primitive accepts it over exactly the data of the message (with canonical line endings for text signatures) and the signature's own fields.",
  "every literal message, every list of signers with correct primitives, every hash algorithm and signature type, every signature offered for verification",
  "All contents, all signers and all forged signatures; tests sign nothing and verify a few stored signatures.",
  "pgp/message.py:BaseMessage.sign,LiteralMessageBase,TextMessage.to_signable_data,BinaryMessage.to_signable_data,SignedMessageWrapper","pgp/transferrable_keys.py:BaseSecretKey.sign,BasePublicKey.verify")

p("C96","A compressed message arrives and opens as the message that was compressed",
  "Compressing a message with any supported algorithm and level, sending it, receiving it and opening it gives the message back, whatever it is (literal, signed, encrypted, compressed again), so that signatures made before compression still verify; the same holds when it is encrypted after compression.",
  "every message that can be sent, every compression algorithm and level, every list of signers",
  "All contents and all nestings; tests decompress one stored packet.",
  "pgp/message.py:BaseMessage.compress,CompressedMessageWrapper","pgp/packets/packets.py:CompressedDataPacket")

p("C97","Making a signature changes neither earlier signatures nor the caller's subpackets",
  "Signing any number of items, with or without a list of extra subpackets, leaves that list and every signature made before as they were, and each signature is the one its call alone would make.",
  "every sequence of calls of sign and every list of extra subpackets",
  "All histories of calls sharing a list; no test signs twice with one list.",
  "pgp/transferrable_keys.py:BaseSecretKey.sign","pgp/signature.py:BaseSignature.__init__")

p("C98","Merging combines copies of one key and never two different keys",
  "When keys are merged with a database, two keys are taken for copies of one another exactly if the public parts of their key packets are the same octets (up to a changed expiration in versions 2 and 3); this is an equivalence relation, a key is never merged with another key, and a copy in the database is always found, whether the key is locked or not.",
  "every pair of received key packets and every list of keys found in the database",
  "All pairs of keys; tests compare none.",
  "pgp/merge.py:keys_equivalent,merge,merge_key")

p("C99","Every keyring file can be opened as a key database, and only keyring files are",
  "Opening a file that holds keys gives a database with all of them, never taking it for a database of another kind; a new file is made if asked for; a database that has become empty can still be opened; files of other kinds are refused with an error; the file opened is the one named.",
  "every file name, every content of the file and every setting",
  "All file contents, whose first octets decide; tests open two stored files.",
  "pgp/db/gpg.py:get_resource,Keyring.__init__,GDBM.__init__,BaseResource.__init__")

p("C100","A signing subkey is accepted exactly with a valid back signature",
  "When a signature binding a subkey that may sign is validated, it is accepted exactly if it carries an embedded primary key binding signature made by the subkey over both keys; other subkeys need none.",
  "every binding signature: any usage flags, any list of embedded signatures, any keys",
  "All embedded signatures, genuine or forged; tests validate a few stored keys.",
  "pgp/signature_verification.py:check_back_signatures,get_hashed_subpacket_data,validate_key_signature")

p("C101","The output limit is kept, and output within the limit is written whole",
  "With a limit of n octets on the output, output of at most n octets is written completely and in order, longer output is refused and never more than n octets are written; without a limit everything is written.",
  "every limit, every output and every way of it being handed over in pieces",
  "All sizes around the limit and all ways to cut the output; no test writes output.",
  "pgp/commands/gpg/io_helper.py:IOHelper.write_output","pgp/commands/gpg/exceptions.py:FatalException")

p("C102","Status, log and attribute output goes to the place chosen for it and nowhere else",
  "A status line, log line or attribute packet is written exactly once, to the descriptor or file the user chose for it, or to standard error if none was chosen for the log, and to nothing else.",
  "every choice of descriptors and files, and every text",
  "All combinations of options; no test uses one.",
  "pgp/commands/gpg/io_helper.py:IOHelper.write_status,write_log,write_attribute,open_fd,open_filename")

p("C103","The photo viewer's command is the template with its marks replaced, and gets the photo",
  "Viewing a photo runs the command of the template with %i, %I, %k, %K, %f, %t, %T, %v, %V, %U and %% each replaced once by what it stands for and all else left as it is, and the photo is given to the command: in the file named if the template names one, otherwise on its input.",
  "every template, every photo and every key",
  "All templates and all values, which may contain marks themselves; no test views a photo.",
  "pgp/commands/gpg/io_helper.py:IOHelper.view_photo")

p("C104","The digest and compression used are those named by the options",
  "A message signed on the command line uses the digest named by --digest-algo, else the first of the personal preferences, else SHA-512; it is compressed with the algorithm named by --compress-algo, else the first of the personal preferences, else ZIP, at the level of -z or else of --compress-level; names that are not known are refused, and a level of 0 disables compression.",
  "every combination of options, every text as a name, every message",
  "All names and combinations of options; a wrong name goes unnoticed, since the message is signed all the same.",
  "pgp/commands/gpg/algorithm_helper.py:AlgorithmHelper", "pgp/commands/gpg/sign.py:Command", "pgp/commands/gpg/arguments.py:make_argparser")
p("C105","Lines beginning with From are escaped before signing",
  "With --escape-from-lines (the default) every line of the text that begins with 'From ' is prefixed with '- ', all other lines are signed as they are, and the escaping can be undone.",
  "every text, with any number of lines",
  "All texts; tests do not reach the command.",
  "pgp/commands/gpg/message_.py:MessageCommand.file_to_literal_message")
p("C106","A keyring is a mapping from ids to keys",
  "After any history of additions, deletions and updates, items(), values(), membership and iteration of a keyring agree with look-up: items() gives every id with the key that looking it up gives, an id is in the keyring exactly if looking it up succeeds, and iterating gives the ids.",
  "every keyring file, every history of operations, every text looked for",
  "All files and histories, ids that collide, and texts of any length.",
  "pgp/db/gpg.py:BaseResource", "pgp/db/gpg.py:Keyring.keys", "pgp/db/gpg.py:Keyring.get_transferrable_key")
p("C107","Output never overwrites its input",
  "The output for a named input file goes to the file of that name with .asc (armored) or .gpg added: never the input file itself, different for different inputs, and different for armored and binary output.",
  "every file name",
  "All names, including ones that end in .asc or .gpg already.",
  "pgp/commands/gpg/formatter.py:Formatter.make_output_filename")

p("C108","Signatures belong to the parts they follow",
  "In a key object read from packets, the primary key, every user id, every user attribute and every subkey carries exactly the signatures that followed its packet, in that order; no signature is lost, moved or doubled, and user ids, attributes and subkeys keep their order.",
  "every sequence of packets that forms a key, with any number of user ids, attributes, subkeys and signatures",
  "Tests read a few keys; a loop that attaches the signatures of the last part to the wrong one shows up only for certain arrangements.",
  "pgp/transferrable_keys.py:TransferablePublicKey.from_packets", "pgp/utils.py:SignatureIterator", "pgp/user_id.py:UserID.from_packet")
p("C109","Certifications arrive with the key and verify",
  "If a key that was read is certified at any of its parts (direct key signature, certification of a user id or attribute, subkey binding) with a working signing key, the key can be written, read back by anyone, carries the new signature at the end of that part and is otherwise unchanged, and the signature verifies over the octets of the packets of the key. The same octets are signed for a secret key and its public half.",
  "every well-formed key file, every part of it, every signing key whose primitives are correct, all subpackets that can be written",
  "The octets hashed depend on all parts of the key and must be the same before writing and after reading, for all keys.",
  "pgp/transferrable_keys.py:BaseSecretKey.sign", "pgp/transferrable_keys.py:BasePublicKey.to_signable_data", "pgp/user_id.py:UserID.to_signable_data", "pgp/packets/packets.py:get_content_for_signature_hash")

p("C110","A secret key file is opened by its passphrase, and by that alone",
  "A secret key file whose key packets are protected by a passphrase in the way RFC 4880 prescribes is read; the key read is unlocked by that passphrase; then the primary key and every subkey sign with exactly the numbers that were protected in the packet of that key, handed to the cryptographic library in the library's order. Another passphrase is refused unless the octets it decrypts end in their SHA-1 for every key packet.",
  "every well-formed secret key file with any number of subkeys, user ids and signatures, every key algorithm, cipher, hash, specifier and salt, every passphrase, every block cipher and digest of the right sizes",
  "It composes framing, key grammar, string-to-key, CFB, integer parsing and the order of values for all files and passphrases.",
  "pgp/transferrable_keys.py:TransferableSecretKey.unlock", "pgp/transferrable_keys.py:BaseSecretKey.unlock", "pgp/transferrable_keys.py:BaseSecretKey._get_key_obj", "pgp/packets/packets.py:SecretKeyPacket", "pgp/s2k.py:S2KSpecification.to_key", "pgp/shortcuts.py:read_key")

p("C111","From a secret key file to a signature verified with the exported public key",
  "The owner of a protected secret key file reads it, exports its public half to a second file, unlocks the secret key with the passphrase and signs; whoever reads the second file finds, in the same order, the public keys that belong to the parts of the secret key, and each accepts what the corresponding secret part signs: keys, user ids, images, documents, and literal messages sent as a whole.",
  "every well-formed protected secret key file, every part of it, every cryptographic library whose verification accepts what it signs, every passphrase, hash, signature type, subpacket and literal message",
  "The public and the secret object are built by different code from different files; that both hand the same numbers, in the same order and under the same key id, to the library is a claim about all keys.",
  "pgp/transferrable_keys.py:BasePublicKey._get_key_obj", "pgp/transferrable_keys.py:BaseSecretKey._get_key_obj", "pgp/transferrable_keys.py:BasePublicKey.verify", "pgp/transferrable_keys.py:BaseSecretKey.sign", "pgp/transferrable_keys.py:TransferableSecretKey.to_public_key", "pgp/utils.py:sign_hash", "pgp/utils.py:verify_hash", "pgp/shortcuts.py:read_key")

p("C112","A message encrypted to exported public keys is opened with the secret key files",
  "People give out the public halves of their protected secret key files. Someone reads these files, encrypts a message to any of the keys in them, named or hidden, and sends it; each owner reads the secret key file, unlocks it with the passphrase, and opens what arrives with the part of the key it was encrypted to: the message is the one that was sent.",
  "every number of recipients, every well-formed protected secret key file, every part of it, every message that can be sent, every session key and cipher, every library whose decryption inverts its encryption",
  "It needs the numbers of the key, the octets of the exported file, the encoding of the ciphertexts and the data packet to fit together for all keys and messages.",
  "pgp/message.py:public_key_encrypt", "pgp/message.py:PublicKeySessionKey", "pgp/packets/packets.py:PublicKeyEncryptedSessionKeyPacket", "pgp/transferrable_keys.py:BasePublicKey._get_key_obj", "pgp/transferrable_keys.py:BaseSecretKey._get_key_obj", "pgp/transferrable_keys.py:TransferableSecretKey.to_public_key", "pgp/message.py:EncryptedMessageWrapper.get_message")

p("C113","Armored text has the form of RFC 4880, section 6, and every text of that form is read",
  "What ASCIIArmor writes is, character for character, the header line for the kind of data and the part of a message, the given headers, an empty line, the base64 of the data in lines of at most 72 characters, the base64 of its CRC, and the tail line. Conversely every text of that form, whoever wrote it, is read to the data it stands for: with any headers in any order, any line lengths, blank lines before it and anything after it.",
  "all kinds of data and part numbers, all data, all headers, all ways to break the base64 into lines, both line ends",
  "Round trips of the library's own texts do not show that other programs can read them, nor that texts of other programs are read; both range over all data and all layouts.",
  "pgp/armor.py:ASCIIArmor.__str__", "pgp/armor.py:ASCIIArmor.from_ascii", "pgp/armor.py:header_line_expr")

p("C114","Several keyring objects on one file see the same keys",
  "Objects made for the same keyring file, in one process or in several, may be used in turn: no change made through one of them is lost or spoiled by the others, each finds the keys that are in the file, and an operation on a key concerns that key and no other. (Only additions are safe; false for look-ups and deletions, because the objects remember where in the file the keys were.)",
  "every keyring content, number of objects, sequence of operations and choice of the object for each of them",
  "It ranges over all interleavings of operations by any number of objects; the tests use one object.",
  "pgp/db/gpg.py:Keyring.add_transferrable_key", "pgp/db/gpg.py:Keyring.delete_transferrable_key", "pgp/db/gpg.py:Keyring.get_transferrable_key", "pgp/db/gpg.py:Keyring._update_offset_table")

p("C115","Data that is cut short is detected",
  "A key or message of which the end is missing, because a transfer stopped or a disk was full, is not taken for a complete one: reading it raises an exception. (True of armored text cut anywhere, and of packets cut within a header or within a public key; false of packets cut within other contents: the reader takes what is left as the content, so that a shorter user id, a shorter document or a message without its signatures is read without any exception.)",
  "every armored text and every place to cut it; every sequence of packets, in either header format, and every place to cut it",
  "It ranges over all data and all places where it may end; tests read complete files.",
  "pgp/packets/parsers.py:parse_binary_packet_data", "pgp/packets/packets.py:packet_from_packet_data", "pgp/armor.py:ASCIIArmor.from_ascii", "pgp/message.py:SignedMessageWrapper", "pgp/shortcuts.py:read_key", "pgp/shortcuts.py:read_message")

p("C116","Requests to a keyserver",
  "For the URL of a keyserver (hkp, hkps, http or https, in any case, with any host, port and path) requests go to that host over the transport the URL names and below its path; there is no client for other schemes. A search or a request for a key asks for exactly the given terms or identifier, whatever characters they contain. A key that is submitted arrives as it is, and a key that is got is the key asked for; a secret key is not sent. (False for https, which becomes http, for the port of hkp, for the identity of the key received, for answers with anything in front of the armor, and for secret keys.)",
  "all URLs, search terms, identifiers, keys and answers",
  "The tests do not use the client at all; it ranges over all texts and keys.",
  "pgp/keyserver/__init__.py:get_keyserver", "pgp/keyserver/hkp.py:HKPKeyserverClient.__init__", "pgp/keyserver/hkp.py:HKPKeyserverClient.get_url", "pgp/keyserver/hkp.py:HKPKeyserverClient.submit_url", "pgp/keyserver/hkp.py:HKPKeyserverClient.get", "pgp/keyserver/hkp.py:HKPKeyserverClient.search", "pgp/keyserver/hkp.py:HKPKeyserverClient.submit")

p("C117","What malformed data does",
  "Whatever is given to be read as armor, packets, a signature, a key or a message, reading ends, and ends with a result or with an exception from a known list; a caller who catches the library's exceptions and ValueError has caught them all. (The lists are exact; the last part is false: IndexError, AssertionError, TypeError, NotImplementedError, UnboundLocalError and AttributeError occur as well. Nesting of signatures in signatures is not limited.)",
  "all texts and all octets, of any length and nesting",
  "It is a statement about every input; each function on the way has its own ways to fail.",
  "pgp/armor.py:ASCIIArmor.from_ascii", "pgp/packets/parsers.py:parse_binary_packet_data", "pgp/packets/parsers.py:parse_binary_packet_stream", "pgp/packets/packets.py:SignaturePacket.from_packet_content", "pgp/shortcuts.py:read_key", "pgp/shortcuts.py:read_message", "pgp/transferrable_keys.py:validate_transferrable_key", "pgp/message.py:open_pgp_message_from_packets")

p("C118","Whether, and why, a part of a key is revoked",
"key.revoked, subkey.revoked, user_id.revoked and user_attribute.revoked are True exactly if the part carries a valid revocation by the key itself or by an appointed revoker; revocation_reason and revocation_code give the reason stated in it; revocation_keys gives all appointed revokers; current_self_signatures gives the self-signatures in force. (What is tested is only type, named issuer and expiry: nothing is verified, appointed revokers do not count, subkey revocations cannot be read, the reason is never given.)",
"every key, part, list of signatures, time and digest function",
"The answer depends on every combination of signatures a key can carry, including forged ones.",
"pgp/transferrable_keys.py:SignedMixin.self_signatures","pgp/transferrable_keys.py:SignedMixin.current_self_signatures","pgp/transferrable_keys.py:SignedMixin.revocation_signatures","pgp/transferrable_keys.py:SignedMixin.revoked","pgp/transferrable_keys.py:SignedMixin.get_most_recent_selfsig")
p("C119","The key a message is encrypted to",
"A message for a recipient is encrypted to a subkey of the recipient's key that is marked for encryption by the self-signature in force and is neither revoked nor expired nor of an algorithm that cannot encrypt; to the primary key only if there is no such subkey and it is so marked; and if there is neither, or the key is revoked, to nothing. (Marks in certifications of user ids, expiry and algorithms are not looked at.)",
"every key, with any number of subkeys and signatures, and every time",
"It is a statement about all keys; each combination of flags, revocations, expiry and order of subkeys and signatures is another case.",
"pgp/commands/gpg/recipient_helper.py:RecipientHelper.find_recipient_public_key","pgp/transferrable_keys.py:SignedMixin.revoked","pgp/transferrable_keys.py:SignedMixin.get_most_recent_selfsig","pgp/signature.py:BaseSignature.may_encrypt_comms")
p("C120","A key stored in a keyring file is found there and comes out as it went in",
 "Storing a key that was read from its octets into a keyring file accepts it, appends its packets to the file, in the header format of the file, and leaves the other keys alone; replacing or removing a key changes nothing else; afterwards, and after opening the file anew, every key in the file, old or new, public or secret, is found under any text with the last eight digits of its fingerprint unless a later key shares these digits, and the key found gives back exactly its octets; under other texts nothing is found. Storing a key never makes the file unreadable.",
 "all keyring files made of keys, all histories of stored, replaced and removed keys of any size, all header formats, all texts looked up",
 "there are infinitely many keyrings and sequences of keys; whether what is appended is read back the same way depends on the packet formats of both the file and the key",
 "pgp/db/gpg.py:Keyring","pgp/shortcuts.py:read_key","pgp/transferrable_keys.py:TransferrablePublicKey.to_packets","pgp/packets/packets.py:Packet.__bytes__","pgp/packets/parsers.py:parse_binary_packet_stream")
p("C121","A search finds exactly the keys that match",
 "In a database of keyring files, a search for a text returns exactly the stored keys with a user id that contains the text regardless of case, each as it was stored, in the order of the files and of the keys in them; a search for a fingerprint or key id returns exactly the stored keys with that fingerprint or id.",
 "all databases of any number of keyring files with any number of keys of any size, public or secret, in any header formats; all texts and ids searched for",
 "there are infinitely many databases and search texts; a test only shows that some key is found in some keyring, not that no other is and none is missed",
 "pgp/db/gpg.py:GPGDatabase.search","pgp/db/gpg.py:GPGDatabase._matches_user_id","pgp/db/gpg.py:Keyring.get_transferrable_key","pgp/transferrable_keys.py:UserID")
p("C122","Saving a key again changes nothing",
 "Whatever octets a key or signature was read from, what is written for it can be read again, and is then written with exactly the same octets: reading and writing may tidy a key up once, but a key does not change, lose parts or become unreadable by being saved over and over.",
 "all octet strings that are read as a key (public or secret, with any number of user ids, images, subkeys and signatures, nested to any depth) or as a signature packet, however untidily they were written; all header formats to write in; any number of saves",
 "a round-trip test starts from octets that some tidy writer made; the property is about everything the readers accept, including loose integers, unusual lengths, reserved flags, invalid UTF-8 and unused trailing parts",
 "pgp/transferrable_keys.py:TransferablePublicKey","pgp/packets/packets.py:SignaturePacket","pgp/packets/signature_subpackets.py","pgp/packets/packets.py:PublicKeyPacket","pgp/shortcuts.py:serialize_key")
p("C123","A message is passed on unchanged",
 "Whatever octets a message was read from, what is written for it is read as the same message - the same text or octets, name and time, the same session keys and encrypted data, the same signatures - and is then written with exactly the same octets.",
 "all octet strings that are read as a message (literal, compressed, encrypted to any number of keys and passphrases, signed with any number of signatures), however they were written",
 "a round-trip test starts from a message the library itself made; the property is about everything its reader accepts, including other header formats, bodies in chunks, other text encodings, trailing packets and untidy signatures",
 "pgp/message.py","pgp/packets/packets.py:LiteralDataPacket","pgp/packets/packets.py:SignaturePacket","pgp/packets/packets.py:OnePassSignaturePacket")
p("C124","The numbers of a signature can be taken from its packet",
 "get_signature_values, given the octets of a signature packet, returns exactly the integers behind the left octets of the hash, in order, whatever the subpackets hold and however the integers are written; they are the integers of the signature that the library reads from the same octets; octets that are cut off raise IndexError and nothing else.",
 "all octets of signature packets of version 2, 3, 4 and later, with subpacket areas of any content and any number of integers of any size; all octets at all for the exceptions",
 "the function finds the integers by walking over areas of any length and content; a test has a few packets",
 "pgp/utils.py:get_signature_values","pgp/utils.py:mpi_to_int","pgp/packets/packets.py:SignaturePacket.from_packet_content")
p("C125","A signature made from its parts has these parts",
 "A signature object made with a version, types, numbers, subpackets, a creation time and the key id of an issuer has these: creation_time and issuer_key_ids answer them, its packet holds them, and what is written for it is read as a signature with the same parts.",
 "all versions, algorithm numbers, times, key ids, lists of subpackets (signatures in signatures included) and integers",
 "the parts can be combined in unboundedly many ways and each goes through another attribute",
 "pgp/signature.py:BaseSignature.__init__","pgp/signature.py:BaseSignature.to_packet","pgp/signature.py:BaseSignature.from_packet","pgp/signature.py:BaseSignature._get_creation_time","pgp/signature.py:BaseSignature._get_issuer_key_ids")
p("C126","Signing a file on the command line writes the signature and harms no file",
 "The commands to sign, clear-sign and sign detached write the signed message, or the signature, to the file that bears the name of the file signed and the extension for armor or octets; the file signed and all others are left alone, and a command that fails leaves every file as it was.",
 "all files and contents, keys, options and the three commands",
 "every command line, file system and key combines into another run, and the harm shows only in which files exist and what they hold afterwards",
 "pgp/commands/gpg/sign.py:Command.run","pgp/commands/gpg/sign.py:Command.sign_message","pgp/commands/gpg/clearsign.py:Command","pgp/commands/gpg/detach_sign.py:Command.output","pgp/commands/gpg/message_.py:MessageCommand.file_to_literal_message","pgp/commands/gpg/io_helper.py:IOHelper.write_output")
out = os.path.join(os.path.dirname(os.path.abspath(__file__)), "..", "properties.jsonl")
with open(out, "w") as f:
    for x in P: f.write(json.dumps(x, ensure_ascii=False) + "\n")
print(len(P))
