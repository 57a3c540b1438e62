{"id": "C01", "title": "Fixed-width integers survive serialisation", "statement": "Writing a non-negative integer below 2^16 / 2^32 / 2^64 with the 2-, 4- or 8-octet writer and reading it back gives the same integer, the number of octets written is always exactly 2, 4 or 8, and any two (four) octets read and written back are unchanged. An integer at or above 2^16 handed to the 2-octet writer is silently reduced modulo 2^16 and so on for the other widths.", "quantifier": "every integer below the width's bound, every octet string of the width, any surrounding data and offset", "why_tests_cant": "2^64 inputs; a test samples a few boundary values.", "anchors": ["pgp/utils.py:byte_to_int,short_to_int,long_to_int", "pgp/utils.py:int_to_2byte,int_to_4byte,int_to_8byte"]}
{"id": "C02", "title": "Big-endian integer conversion is a bijection up to leading zeros", "statement": "Reading an n-octet window gives a value below 256^n, distinct windows of the same length give distinct values, and writing the value of a positive integer and reading it back is the identity.", "quantifier": "every octet string of every length, every positive integer of any size", "why_tests_cant": "Unbounded sizes.", "anchors": ["pgp/utils.py:bytes_to_int", "pgp/utils.py:int_to_bytes"]}
{"id": "C03", "title": "Multi-precision integers round-trip in sequence", "statement": "For every list of non-negative integers below the format's size limit (fewer than 2^16 bits), serialising them as consecutive MPIs, followed by any other data, and then reading that many MPIs returns exactly the integers and an offset that points at the following data.", "quantifier": "every list of integers below 2^65528, any trailing octets, any prefix before the first MPI", "why_tests_cant": "Unbounded magnitude and list length.", "anchors": ["pgp/utils.py:int_to_mpi,mpi_to_int,mpi_length,bits_required,bytes_required"]}
{"id": "C04", "title": "MPI encoding is canonical", "statement": "The MPI written for an integer has the exact bit length in its header and no leading zero octet, so two different encodings never denote the same written integer. (True under exact logarithms; the floating-point logarithm the code uses breaks it for e.g. 2^49-1.)", "quantifier": "every non-negative integer", "why_tests_cant": "Fails only near large powers of two, which sampling does not hit.", "anchors": ["pgp/utils.py:int_to_mpi,bits_required"]}
{"id": "C05", "title": "New-format lengths round-trip", "statement": "For every length from 0 to 2^32-1, the length octets written for a new-format packet header, followed by any data, are read back as exactly that length, as non-partial, and the reader's offset ends immediately after them.", "quantifier": "every length 0..2^32-1, any following data, any offset", "why_tests_cant": "2^32 values times arbitrary context.", "anchors": ["pgp/utils.py:new_packet_length,new_packet_length_to_bytes"]}
{"id": "C06", "title": "New-format length encoding is shortest and rejects what it cannot express", "statement": "The writer uses one octet below 192, two below 8384, five up to 2^32-1; no other definite encoding accepted by the reader for that value is shorter; above 2^32-1 it raises unless partial lengths are allowed, in which case it writes exactly a 2^30 partial-length octet.", "quantifier": "every length (unbounded)", "why_tests_cant": "Boundaries and unbounded range.", "anchors": ["pgp/utils.py:new_packet_length_to_bytes"]}
{"id": "C07", "title": "Old-format lengths round-trip below 2^24 and are indeterminate above", "statement": "Below 2^24 the old-format length octets and length-type read back as the same length; at or above 2^24 the writer emits no octets and the indeterminate type, and the reader then takes everything up to the end of the data as the body.", "quantifier": "every length, any following data", "why_tests_cant": "Unbounded.", "anchors": ["pgp/utils.py:old_packet_length,old_packet_length_to_bytes"]}
{"id": "C08", "title": "Length readers always advance and agree between file and memory input", "statement": "Whenever a packet length is read successfully the offset advances by 1 to 5 octets (new), 0 to 4 (old), never beyond the data, and reading the same octets from a file object gives the same length and partial flag, except that the old-format indeterminate length, which means everything up to the end of the data in memory, raises ValueError when read from a file object.", "quantifier": "every octet string and offset", "why_tests_cant": "All octet strings.", "anchors": ["pgp/utils.py:new_packet_length,new_packet_length_from_stream,old_packet_length,old_packet_length_from_stream"]}
{"id": "C09", "title": "A serialised packet parses back to the same type and content", "statement": "Serialising a packet (new or old header format) and parsing the result yields the same packet type, header format and content octets, and the parser stops exactly at the end of the packet whatever follows.", "quantifier": "every packet type 0..63 (new) / 0..15 (old), every content of any length the format can express, any following data", "why_tests_cant": "Contents of unbounded length; fails on the empty content, which tests do not exercise.", "anchors": ["pgp/packets/packets.py:Packet.__bytes__,packet_from_packet_data"]}
{"id": "C10", "title": "A concatenation of packets parses to the same packets in order", "statement": "Parsing the concatenation of serialised packets with the whole-buffer parser gives the same packets in the same order and consumes all octets.", "quantifier": "every finite list of packets", "why_tests_cant": "Unbounded lists.", "anchors": ["pgp/packets/parsers.py:parse_binary_packet_data", "pgp/packets/packets.py:packet_from_packet_data"]}
{"id": "C11", "title": "Parsing terminates on every input and never invents octets", "statement": "On any octet string the packet parser either raises or returns in at most as many steps as there are octets; each parsed packet consumes at least one octet; every parsed body is made of octets taken from the input, in order.", "quantifier": "every octet string (including hostile ones)", "why_tests_cant": "All inputs; termination is not observable by a finite test.", "anchors": ["pgp/packets/parsers.py:parse_binary_packet_data", "pgp/packets/packets.py:packet_from_packet_data"]}
{"id": "C12", "title": "Partial-length bodies are reassembled", "statement": "A body split into any sequence of partial-length chunks followed by a final definite chunk is parsed into the concatenation of the chunks.", "quantifier": "every chunking of every body", "why_tests_cant": "Unbounded number of chunks; the stream parser gets it wrong.", "anchors": ["pgp/packets/packets.py:packet_from_packet_data,packet_from_packet_stream"]}
{"id": "C13", "title": "Stream and in-memory parsing agree", "statement": "Parsing a packet from a file object gives the same result as parsing it from memory when the packet has a definite length and its first octet is non-zero.", "quantifier": "every octet string whose first packet has definite length", "why_tests_cant": "All inputs.", "anchors": ["pgp/packets/packets.py:packet_from_packet_stream,packet_from_packet_data"]}
{"id": "C14", "title": "Serialising a packet always terminates", "statement": "Converting any packet object to octets finishes. (False: a data-bearing packet with more than 2^32-1 octets of content loops forever.)", "quantifier": "every packet content of any length", "why_tests_cant": "Non-termination and multi-gigabyte contents are out of reach of unit tests.", "anchors": ["pgp/packets/packets.py:Packet.__bytes__"]}
{"id": "C15", "title": "The armor checksum is the CRC-24 of the specification", "statement": "The table-driven checksum of any octet string equals the bit-by-bit CRC-24 of RFC 4880 section 6.1 (polynomial 0x1864CFB, initial value 0xB704CE), is below 2^24, and can be computed incrementally over any split of the data.", "quantifier": "every octet string of any length, every split", "why_tests_cant": "All strings.", "anchors": ["pgp/crc24.py:crc24,CRC24_TABLE"]}
{"id": "C16", "title": "The checksum detects every error burst of at most 24 bits", "statement": "Two messages of the same length that differ only inside one window of three consecutive octets have different checksums; in particular any single corrupted octet is detected.", "quantifier": "every message, every position, every corruption of up to three adjacent octets", "why_tests_cant": "Messages times error patterns is unbounded.", "anchors": ["pgp/crc24.py:crc24"]}
{"id": "C17", "title": "ASCII armor round-trips", "statement": "Armoring any data with version and comment headers and dearmoring the text gives back the same type, data, version, comment (and, for multi-part messages, part numbers).", "quantifier": "every octet string and every header text without line breaks", "why_tests_cant": "All data lengths relative to the 72-column wrapping.", "anchors": ["pgp/armor.py:ASCIIArmor.from_ascii,ASCIIArmor.__str__"]}
{"id": "C18", "title": "Armor with a wrong checksum is rejected", "statement": "Whenever dearmoring accepts a text that has a checksum line, the checksum equals the CRC-24 of the returned data; a text whose checksum does not match is rejected.", "quantifier": "every text", "why_tests_cant": "All texts.", "anchors": ["pgp/armor.py:ASCIIArmor.from_ascii"]}
{"id": "C19", "title": "The S2K iteration count code is exact", "statement": "Each of the 256 count codes decodes to a value between 1024 and 65011712 that encodes back to the same code, decoding is strictly increasing, and encoding a number succeeds exactly when it is one of those 256 values.", "quantifier": "all codes and all natural numbers", "why_tests_cant": "The accept set is claimed over all integers.", "anchors": ["pgp/utils.py:s2k_count_to_int,int_to_s2k_count"]}
{"id": "C20", "title": "S2K derivation matches the specification's octet stream", "statement": "The derived session key is the first n octets (n the key length RFC 4880 / RFC 5581 give the cipher) of hash(0^0||S), hash(0^1||S), ... where S is salt||passphrase repeated and cut to the count (at least one full copy for the non-iterated kinds), it always has exactly the key length, and depends only on the arguments.", "quantifier": "every passphrase, salt, count, hash with a positive digest length and cipher key length", "why_tests_cant": "Unbounded passphrases and counts.", "anchors": ["pgp/s2k.py:SimpleS2K.to_key,SaltedS2K.to_key,IteratedAndSaltedS2K.to_key"]}
{"id": "C21", "title": "S2K specifiers survive serialisation", "statement": "Serialising a simple, salted or iterated S2K specifier, followed by any data, and parsing it gives back the same specifier and an offset just past it; the GnuPG extension cannot be serialised at all.", "quantifier": "every hash code, every 8-octet salt, every count code, any following data", "why_tests_cant": "All salts/following data.", "anchors": ["pgp/s2k.py:parse_s2k_bytes,SimpleS2K,SaltedS2K,IteratedAndSaltedS2K,GnuPGS2K"]}
{"id": "C22", "title": "Public key packets survive serialisation", "statement": "Serialising any RSA, DSA or ElGamal public key of version 2, 3 or 4 and parsing it gives a key with the same version, creation time, algorithm, expiry days (v2/v3) and integers.", "quantifier": "every creation time below 2^32, expiry below 2^16 days, all key integers below 2^65528", "why_tests_cant": "Unbounded key sizes.", "anchors": ["pgp/packets/packets.py:PublicKeyPacket._parse_public_key_content,PublicKeyPacket.public_content"]}
{"id": "C23", "title": "A v4 fingerprint identifies the key material", "statement": "The v4 fingerprint is the hash of 0x99, the two-octet length and the public content; two v4 keys whose hashed octets coincide have equal creation time, algorithm and integers, so with a collision-free hash equal fingerprints mean equal keys. v3 keys have no computable fingerprint.", "quantifier": "every pair of v4 public keys with content below 2^16 octets", "why_tests_cant": "Quantifies over all pairs.", "anchors": ["pgp/utils.py:key_packet_fingerprint,hash_key", "pgp/packets/packets.py:PublicKeyPacket.fingerprint,key_id"]}
{"id": "C24", "title": "Signature subpackets survive serialisation", "statement": "Serialising a signature subpacket area and parsing it back gives the same list of subpackets with the same types, critical bits, hashed flags and values, for every subpacket kind whose reader and writer agree.", "quantifier": "every list of subpackets, every value of each kind", "why_tests_cant": "Unbounded lists and contents.", "anchors": ["pgp/packets/signature_subpackets.py:signature_subpacket_from_data,SignatureSubpacket.__bytes__"]}
{"id": "C25", "title": "v4 signature packets survive serialisation", "statement": "Serialising a v4 signature packet and parsing its content gives the same type, algorithms, hashed and unhashed subpackets, hash prefix and signature integers.", "quantifier": "every v4 signature packet with subpacket areas below 2^16 octets", "why_tests_cant": "Unbounded subpackets and integers.", "anchors": ["pgp/packets/packets.py:SignaturePacket.from_packet_content,SignaturePacket.content"]}
{"id": "C26", "title": "Session key packets survive serialisation", "statement": "Public-key encrypted session key packets and symmetric-key encrypted session key packets serialise and parse back to the same key id, algorithm, integers, S2K specifier and encrypted key; one-pass signature packets do too.", "quantifier": "every key id, algorithm, integer and encrypted key", "why_tests_cant": "Unbounded values; the one-pass reader silently loses half of the key id.", "anchors": ["pgp/packets/packets.py:PublicKeyEncryptedSessionKeyPacket,SymmetricKeyEncryptedSessionKeyPacket,OnePassSignaturePacket"]}
{"id": "C27", "title": "What is hashed for a signature determines what was signed", "statement": "The octets fed to the hash when signing determine the signature version, type, algorithms and hashed subpacket data and the signed key/user-id octets, so two different (target, signature-metadata) pairs of the same kind never hash the same octets; unhashed subpackets have no influence.", "quantifier": "every pair of targets and signature metadata", "why_tests_cant": "Injectivity over all pairs.", "anchors": ["pgp/utils.py:hash_packet_for_signature,hash_key,hash_user_data"]}
{"id": "C28", "title": "What is signed verifies", "statement": "For every key and message, the values produced by signing a digest are accepted when verifying the same digest with the corresponding public key, for RSA and DSA, given the primitives' own sign/verify correctness; and any digest the verifier hands to the primitive is the one the signer handed to it.", "quantifier": "every digest, hash algorithm and key", "why_tests_cant": "All digests and key sizes.", "anchors": ["pgp/utils.py:sign_hash,verify_hash,get_signature_values"]}
{"id": "C29", "title": "Integrity-protected data decrypts to what was encrypted", "statement": "Encrypting packets with integrity protection and decrypting with the same key and cipher returns exactly the original octets.", "quantifier": "every plaintext, key, cipher block size and random prefix", "why_tests_cant": "Every length relative to the block size.", "anchors": ["pgp/message.py:SymmetricallyEncryptedMessageData.encrypt,decrypt"]}
{"id": "C30", "title": "Modified integrity-protected data is rejected", "statement": "Decryption of integrity-protected data succeeds only if the decrypted packets end in an MDC packet of twenty octets whose content is the SHA-1 of the prefix and all decrypted octets but the last twenty (in the usual encoding: of everything before the digest); otherwise it raises, and nothing is returned. Any accepted change of the data changes the hashed octets.", "quantifier": "every ciphertext", "why_tests_cant": "All ciphertexts.", "anchors": ["pgp/message.py:SymmetricallyEncryptedMessageData.decrypt"]}
{"id": "C31", "title": "Cipher modes are mutually inverse", "statement": "For the ECB, CBC, CFB, OFB and CTR modes of the pure-python cipher wrapper, decrypting with a fresh object what a fresh object with the same key and IV encrypted returns the plaintext, for any block cipher whose block decryption inverts its block encryption; and splitting the data over several calls on block boundaries gives the same output.", "quantifier": "every plaintext, IV, segment size and chunking", "why_tests_cant": "Unbounded data and chunking.", "anchors": ["pgp/cipher/base.py:_InternalObj.encrypt,_InternalObj.decrypt"]}
{"id": "C32", "title": "IDEA decrypts what it encrypts", "statement": "For every 128-bit key and every 64-bit block, decrypting the encryption gives the block back, and ciphertext blocks are always eight octets.", "quantifier": "2^128 keys times 2^64 blocks", "why_tests_cant": "Key space out of reach.", "anchors": ["pgp/cipher/aidea.py:IDEA"]}
{"id": "C33", "title": "Keyring operations behave like operations on a list of keys", "statement": "Adding a key to a keyring file appends it and leaves other keys alone; deleting a key removes that key only; updating replaces that key only; a second add of the same key is refused. (Deletion and update in fact drop everything after the key; duplicates are never refused.)", "quantifier": "every keyring content and every key", "why_tests_cant": "Histories of file operations.", "anchors": ["pgp/db/gpg.py:KeyringResource.add_transferrable_key,update_transferrable_key,delete_transferrable_key,get_transferrable_key"]}
{"id": "C34", "title": "The key database stores secret keys only in secret keyrings", "statement": "Adding a transferable secret key to the database puts it into a secret resource. (False.)", "quantifier": "every database configuration and key", "why_tests_cant": "All configurations.", "anchors": ["pgp/db/gpg.py:GPGDatabase.add_key"]}
{"id": "C35", "title": "Key validation accepts exactly the grammar it implements", "statement": "Validating a packet sequence as a transferable key accepts exactly the sequences: primary key; direct key signatures (0x1f) and revocations (0x20); user ids each followed by certifications (0x10-0x13, 0x30); user attributes each followed by certifications; subkeys (version 4 on) each followed by one or more binding signatures (0x18); trust packets only after a signature or another trust packet, and no 0x1f after one. In particular it never accepts a sequence that does not start with a primary key, has a second one, mixes secret and public, or has packets of other kinds. (Subkey revocations 0x28 are never accepted.)", "quantifier": "every finite packet sequence", "why_tests_cant": "Language equivalence.", "anchors": ["pgp/transferrable_keys.py:validate_transferrable_key"]}
{"id": "C36", "title": "A key exported and re-imported is the same key", "statement": "Building a transferable key from packets and converting it back to packets gives the same packets when there is no trust packet; with a trust packet everything after it is dropped.", "quantifier": "every accepted packet sequence", "why_tests_cant": "Unbounded sequences.", "anchors": ["pgp/transferrable_keys.py:TransferablePublicKey.from_packets,to_packets"]}
{"id": "C37", "title": "Message recognition follows the grammar", "statement": "A packet sequence is turned into a message exactly if it is one by the library's grammar (literal or compressed packet; session keys and integrity protected data; one-pass packets, one single-packet message and signatures), and as that message; anything else raises. Measured against RFC 4880 the grammar is wrong: signature-first messages, unprotected encrypted data and signed encrypted messages never open, trailing packets and missing signatures go unnoticed.", "quantifier": "every packet sequence", "why_tests_cant": "All sequences.", "anchors": ["pgp/message.py:open_pgp_message_from_packets,EncryptedMessageWrapper.from_packets,SignedMessageWrapper.from_packets"]}
{"id": "C38", "title": "A message opens iff one of the offered keys/passphrases opens it", "statement": "Opening an encrypted message with a key or passphrase tries all session key packets in order and uses the first that yields data; it fails iff none works. (Only public-key session keys refused with ValueError are skipped; a passphrase session key is never skipped, and keys of the other kind raise.)", "quantifier": "every list of session keys and every outcome of the primitives", "why_tests_cant": "All combinations.", "anchors": ["pgp/message.py:EncryptedMessageWrapper.get_message"]}
{"id": "C39", "title": "Merging two copies of a key loses nothing", "statement": "Merging a key with another copy of itself keeps every user id and signature of both. (False: the merge raises or yields None for the lists.)", "quantifier": "every pair of keys", "why_tests_cant": "All pairs.", "anchors": ["pgp/merge.py:merge_key,merge,merge_sigpairs"]}
{"id": "C40", "title": "Signature acceptance rules", "statement": "The signature validity rules reject a signature dated before its key, in the future or by a key dated in the future, and in strict mode one by an expired or revoked key; every other one is accepted, with flags telling whether the key has expired or been revoked; an expired signature is rejected; the public entry points apply these rules. (False in part: the signature's own expiration is never considered, check_signature always raises, validate_signature accepts nothing but revocations of certifications, and those without verifying them.)", "quantifier": "every key and signature times, every current time, both strictness modes", "why_tests_cant": "All combinations of times.", "anchors": ["pgp/signature_verification.py:check_signature_values,check_signature,check_revocation_keys", "pgp/validation.py"]}
{"id": "C41", "title": "A locked key is not usable and unlocking is undone", "statement": "A secret key's private values are present exactly while it is unlocked; after leaving the unlocked context (normally or by exception) the key is locked again; a failing unlock leaves nothing unlocked. (The last is false for keys with subkeys.)", "quantifier": "every sequence of lock/unlock operations and failures", "why_tests_cant": "Histories and exception points.", "anchors": ["pgp/transferrable_keys.py:BaseSecretKey.unlock,lock,TransferableSecretKey.unlock,lock", "pgp/context_managers.py"]}
{"id": "C42", "title": "Preferences come from the most recent self-signature", "statement": "The self-signature consulted for key preferences and flags is the most recent one. (False: it is the last listed, whatever its date; true of a key whose self-signatures are listed in order of date.)", "quantifier": "every list of self-signatures", "why_tests_cant": "All orders.", "anchors": ["pgp/transferrable_keys.py:SignedMixin.get_most_recent_selfsig"]}
{"id": "C43", "title": "Regular-expression subpackets are validated exactly", "statement": "The validator accepts a pattern iff it belongs to the documented grammar, and terminates on every pattern.", "quantifier": "every string", "why_tests_cant": "All strings.", "anchors": ["pgp/regex.py"]}
{"id": "C44", "title": "Hex conversion is exact", "statement": "Converting n octets to hex gives 2n upper-case digits which convert back to the same octets; converting a shorter hex string to n octets pads with leading zeros and a longer one keeps the last n octets.", "quantifier": "every octet string, every hex string, every width", "why_tests_cant": "All strings.", "anchors": ["pgp/utils.py:hex_to_bytes,bytearray_to_hex,int_to_hex"]}
{"id": "C45", "title": "Session key block: checksum verified and key recovered", "statement": "Recovering the session key from the decrypted session key block succeeds exactly when the trailing two octets are the sum of the key octets mod 65536 and returns the algorithm and key that were put in; PKCS#1 padding is removed exactly.", "quantifier": "every key, algorithm and padding", "why_tests_cant": "All keys and block contents.", "anchors": ["pgp/packets/packets.py:PublicKeyEncryptedSessionKeyPacket.get_session_key,PKCS115_ElGamal_Cipher"]}
{"id": "C46", "title": "Canonical text form is faithful", "statement": "Two texts that differ other than in line ending style have different canonical signed data. (False: the line-ending regex consumes the neighbouring character.)", "quantifier": "every pair of texts", "why_tests_cant": "All pairs.", "anchors": ["pgp/message.py:TextMessage.to_signable_data"]}
{"id": "C47", "title": "Compressed data is complete", "statement": "Feeding data to the compression wrapper in pieces and flushing gives a stream that decompresses to the concatenation of the pieces. (False for more than one piece with the zlib wrapper.)", "quantifier": "every sequence of pieces", "why_tests_cant": "All chunkings.", "anchors": ["pgp/utils.py:ZlibCompressor,DeflateCompressor,get_compression_instance", "pgp/packets/packets.py:CompressedDataPacket"]}
{"id": "C48", "title": "The message cipher is acceptable to all recipients", "statement": "The symmetric cipher chosen when encrypting is in every recipient's preference list and is the first such of the sender's preferences; integrity protection is used if forced, else not if disabled, else exactly if all recipients support it. (The preference part is false: only the first preference is ever tried.)", "quantifier": "every list of recipients and preferences", "why_tests_cant": "All combinations.", "anchors": ["pgp/commands/gpg/encrypt.py:pubkey_encrypt_message"]}
{"id": "C49", "title": "Unknown critical subpackets invalidate a signature", "statement": "Reading a signature (pgpdump based parser) with an unrecognised critical subpacket raises; an unrecognised non-critical one is ignored. (The first part holds for subpacket types; not for critical notations with undefined flags or invalid critical regular expressions. The second part holds outside the hashed area only: a hashed unrecognised subpacket makes the reading raise.)", "quantifier": "every list of subpackets", "why_tests_cant": "All lists, types and positions.", "anchors": ["pgp/parse.py:parse_signature_subpacket,parse_signature_packet"]}
{"id": "C50", "title": "Secret key packets survive serialisation and locking", "statement": "Serialising a secret key packet and parsing it back gives the same packet; decrypting the private portion with the right passphrase gives exactly the private integers that were encrypted; a portion whose hash does not match is rejected; a packet made from private numbers and a passphrase is written with these numbers encrypted. (The last is never so: writing raises. Serialisation fails for an empty private portion and GnuPG specifiers; unprotected, checksum protected and version 2/3 keys cannot be read or decrypted.)", "quantifier": "every key, passphrase, cipher and private portion", "why_tests_cant": "Unbounded integers, all ciphers and passphrases.", "anchors": ["pgp/packets/packets.py:SecretKeyPacket", "pgp/transferrable_keys.py:BaseSecretKey.unlock"]}
{"id": "C51", "title": "User attribute (image) subpackets survive serialisation", "statement": "Serialising an image attribute and parsing gives the same image and encoding, with lists of attributes recovered in order; headers not of the documented form are rejected.", "quantifier": "every image and every list", "why_tests_cant": "Unbounded.", "anchors": ["pgp/packets/user_attribute_subpackets.py"]}
{"id": "C52", "title": "Signature attribute accessors agree with the subpackets", "statement": "Setting an attribute on a signature and reading it back gives the value set, and does not disturb other attributes; serialisation reflects it.", "quantifier": "every signature state and every sequence of assignments", "why_tests_cant": "All histories.", "anchors": ["pgp/signature.py:BaseSignature"]}
{"id": "C53", "title": "Hidden recipients stay hidden", "statement": "Encrypting to a key with its id hidden does not put the key id into the output. (False.)", "quantifier": "every key and message", "why_tests_cant": "All keys.", "anchors": ["pgp/message.py:PublicKeySessionKey.__init__,to_packet"]}
{"id": "C54", "title": "Literal data survives", "statement": "A literal data packet built from data, filename, format and time serialises and parses back to the same values, for file names of at most 255 octets and ASCII.", "quantifier": "every data, filename and time", "why_tests_cant": "Unbounded.", "anchors": ["pgp/packets/packets.py:LiteralDataPacket"]}
{"id": "C55", "title": "The keyring lock excludes other holders", "statement": "While the lock is held by one owner no other obtains it, nested acquisition included. (An inner release in fact releases the outer lock.)", "quantifier": "every interleaving of lock/unlock by any number of processes", "why_tests_cant": "Interleavings.", "anchors": ["pgp/db/gpg.py:Lock"]}
{"id": "C56", "title": "Resource type detection", "statement": "The keyring resource chosen for a URL/file is determined by its prefix or magic octets as documented. (Prefix stripping and empty files are handled wrongly.)", "quantifier": "every resource name and file content", "why_tests_cant": "All names and contents.", "anchors": ["pgp/db/gpg.py:get_resource"]}
{"id": "C57", "title": "A keyserver listing is read as it was written", "statement": "Reading a keyserver's machine-readable index gives exactly one result per key line, in order, each with its own user ids in order and all fields (percent-encoding undone, empty trailing fields optional, unknown lines skipped). (False where a user id has no creation date: the whole listing fails.)", "quantifier": "every list of keys and user ids and every way of writing the listing", "why_tests_cant": "Unbounded lists, all texts and all encodings.", "anchors": ["pgp/keyserver/hkp.py:HKPKeyserverClient._read_mr", "pgp/keyserver/hkp.py:HKPResult", "pgp/keyserver/hkp.py:HKPUserIdResult"]}
{"id": "C58", "title": "User id parsing terminates and recovers well-formed ids", "statement": "Parsing a user id of the form 'Name (comment) <address>' returns the components, terminates on any string and never reads past the end.", "quantifier": "every string", "why_tests_cant": "All strings.", "anchors": ["pgp/user_id.py"]}
{"id": "C59", "title": "Only secret key armor carries secret keys", "statement": "Serialising a secret key to text labels it as a private key block. (False.)", "quantifier": "every key", "why_tests_cant": "All keys.", "anchors": ["pgp/shortcuts.py:serialize_key", "pgp/shortcuts.py:read_key", "pgp/keyserver/hkp.py:HKPKeyserverClient.submit"]}
{"id": "C60", "title": "Hashed subpackets come only from the hashed area", "statement": "Every subpacket that a parsed signature reports as hashed lies completely inside the octets covered by the hashed area length. (False: a subpacket may start in the area and extend past it.)", "quantifier": "every signature packet content", "why_tests_cant": "All contents and lengths.", "anchors": ["pgp/packets/packets.py:SignaturePacket.from_packet_content"]}
{"id": "C61", "title": "Only the recipient can recover an ElGamal-encrypted session key", "statement": "Recovering the session key from an ElGamal-encrypted session key needs the secret key. (False: the ephemeral exponent is always 0, so the encryption is the padded key itself.)", "quantifier": "every key and session key", "why_tests_cant": "All keys.", "anchors": ["pgp/packets/packets.py:PKCS115_ElGamal_Cipher.encrypt"]}
{"id": "C62", "title": "Passphrase-encrypted session keys are recovered", "statement": "A session key stored under a passphrase is recovered, with its cipher, by the same passphrase after serialising and parsing the packet; without a stored key the passphrase key itself is the session key.", "quantifier": "every passphrase, S2K specifier, cipher and session key", "why_tests_cant": "All keys and passphrases.", "anchors": ["pgp/message.py:SymmetricSessionKey", "pgp/packets/packets.py:SymmetricKeyEncryptedSessionKeyPacket"]}
{"id": "C63", "title": "A crash while a keyring is written does not lose keys", "statement": "If the process dies at any point of an operation that changes a keyring, the file afterwards holds the old keys or the new ones. (False: the file is truncated before it is rewritten.)", "quantifier": "every keyring content, every history of operations before, every operation, every crash point, every way a write may be torn", "why_tests_cant": "Tests do not stop the process between two system calls.", "anchors": ["pgp/db/gpg.py:Keyring"]}
{"id": "C64", "title": "Small packets survive serialisation", "statement": "Compressed data, integrity protected data, user id, comment, modification detection code, GnuPG control and trust packets parse back to the same values after serialisation, and a parsed packet serialises to the octets it came from. (The second half is false for user ids that are not UTF-8 and for trust packets.)", "quantifier": "every packet value and every packet content", "why_tests_cant": "All octet strings.", "anchors": ["pgp/packets/packets.py:TrustPacket", "pgp/packets/packets.py:UserIDPacket", "pgp/packets/packets.py:CompressedDataPacket", "pgp/packets/packets.py:GpgControlPacket"]}
{"id": "C65", "title": "A message goes to exactly the named recipients", "statement": "The encryption command encrypts to exactly the recipients the user named (groups expanded) plus the always-encrypt-to ones, and for each uses an unrevoked encryption key. (False as soon as a group is defined.)", "quantifier": "every list of recipients, groups and keys", "why_tests_cant": "All configurations.", "anchors": ["pgp/commands/gpg/recipient_helper.py:RecipientHelper"]}
{"id": "C66", "title": "Messages survive being written and read", "statement": "Turning a message (literal, compressed, encrypted or signed) into packets and octets and reading these gives the same message. (Not for messages with version 3 signatures, default session keys, nested signatures or signed encrypted content.)", "quantifier": "every message, signature list and session key list", "why_tests_cant": "Unbounded nesting, sizes and contents.", "anchors": ["pgp/message.py:to_packets,open_pgp_message_from_packets"]}
{"id": "C67", "title": "A message encrypted with a passphrase is opened by it", "statement": "Encrypting a message with a passphrase, serialising, parsing and opening with the same passphrase gives the original message, end to end.", "quantifier": "every message, passphrase, cipher, salt, session key and IV", "why_tests_cant": "Unbounded and depends on every octet.", "anchors": ["pgp/message.py:BaseMessage.symmetric_encrypt,EncryptedMessageWrapper.get_message"]}
{"id": "C68", "title": "A key's expiration time is its creation time plus the period in its self-signature", "statement": "A key whose chosen self-signature gives a period of validity is reported to expire that long after its creation; a key without one never expires. (False: with one self-signature the period is dropped; with several it is counted from another signature's date.)", "quantifier": "every key and every list of self-signatures", "why_tests_cant": "All lists and dates.", "anchors": ["pgp/transferrable_keys.py:SignedMixin.expiration_time,BasePublicKey"]}
{"id": "C69", "title": "A revoked signature is reported as revoked and others are not", "statement": "A certification or binding is reported as revoked iff a later matching revocation by the same issuer is attached to the same part of the key.", "quantifier": "every list of signatures", "why_tests_cant": "All lists and dates.", "anchors": ["pgp/signature.py:BaseSignature.revoked,get_revocation_signature", "pgp/transferrable_keys.py"]}
{"id": "C70", "title": "A signature is reported expired exactly after its expiration time", "statement": "At any moment a signature with a nonzero period of validity is reported as expired iff its creation time plus the period lies strictly in the past; others are never reported as expired.", "quantifier": "every signature and every moment", "why_tests_cant": "All dates.", "anchors": ["pgp/signature.py:BaseSignature.expired,expiration_time"]}
{"id": "C71", "title": "The public part of a secret key contains no private value", "statement": "The public key made from a secret key, locked or unlocked, carries no private value and its octets do not depend on any. (The octets do not; but the object made from an unlocked RSA key carries a secret prime.)", "quantifier": "every secret key in every lock state", "why_tests_cant": "All private values.", "anchors": ["pgp/transferrable_keys.py:BaseSecretKey.to_public_key,to_public_key_packet"]}
{"id": "C72", "title": "Fields reported as hashed come from the hashed area", "statement": "Whatever the pgpdump based parser lists as covered by the signature's hash is what the hashed subpackets alone say: adding, removing or changing unhashed subpackets does not alter it. (False when an unhashed subpacket comes first: its value is then reported as hashed.)", "quantifier": "every signature and every list of hashed and unhashed subpackets", "why_tests_cant": "All lists and orders.", "anchors": ["pgp/parse.py:parse_signature_packet,parse_signature_subpacket"]}
{"id": "C73", "title": "A self-signature is recognised", "statement": "The pgpdump based parser marks a signature as a self-signature exactly if its issuer is one of the key's ids. (True for version 2 and 3; in version 4 only the first half of the issuer id is compared, so with full ids none is ever recognised.)", "quantifier": "every signature and list of ids", "why_tests_cant": "All ids and subpackets.", "anchors": ["pgp/parse.py:parse_signature_packet,parse_signature_subpacket"]}
{"id": "C74", "title": "The order check accepts exactly the key grammar", "statement": "The pgpdump based parser accepts a packet sequence as a public key exactly if it is a key packet, direct signatures, certified user ids, certified attributes, and bound subkeys, each with at most one revocation (none for version 3).", "quantifier": "every sequence of packets", "why_tests_cant": "Unbounded sequences.", "anchors": ["pgp/parse.py:validate_transferrable_public_key"]}
{"id": "C75", "title": "A stream of keys is split losslessly", "statement": "Reading a stream of keys gives exactly the well formed keys in it, in order, with all their packets, whatever else is in the stream. (True for streams of well formed keys; a bad key or an unreadable packet hides all the keys after it, an empty stream raises, and with the parser's own key reader no key is ever returned.)", "quantifier": "every stream of packets and reader errors", "why_tests_cant": "Unbounded streams.", "anchors": ["pgp/parse.py:parse,skip_to_next_key,parse_key"]}
{"id": "C76", "title": "Images of a user attribute are read exactly", "statement": "The pgpdump based parser reads each image subpacket of a user attribute with exactly its octets, and always comes to an end. (True for a single subpacket; when another follows its first octet is taken for the end of the image.)", "quantifier": "every attribute packet", "why_tests_cant": "All images and lengths.", "anchors": ["pgp/parse.py:parse_user_attribute_subpackets"]}
{"id": "C77", "title": "Parsed signature fields are what the subpackets say", "statement": "Each field of a signature read by the pgpdump based parser is what the last subpacket of the corresponding type says, and is absent if there is none. (Signatures marked local cannot be read; a signature target is never reported.)", "quantifier": "every list of subpackets that can be read", "why_tests_cant": "All lists of subpackets.", "anchors": ["pgp/parse.py:parse_signature_packet,parse_signature_subpacket"]}
{"id": "C78", "title": "A passphrase typed at the console is the one returned", "statement": "The console prompt returns a passphrase exactly when it was typed together with all confirmations asked for, reads nothing after it, never hangs, and gives back from its cache exactly what was last entered for that id unless it was cleared.", "quantifier": "every request, every sequence of typed lines, every history of calls", "why_tests_cant": "Unbounded histories and typed input.", "anchors": ["pgp/pinentry/getpass.py:GetPassPinentry"]}
{"id": "C79", "title": "What is asked of the gpg-agent arrives as given", "statement": "The command sent to the agent is one line whose words are the command, the options and the four texts, each of which unescapes to the UTF-8 text that was given; sending it never fails. (The text X is indistinguishable from no text.) The command to forget a passphrase names the cache id with the same word as the command that asked for it.", "quantifier": "every request and every Unicode text", "why_tests_cant": "All texts.", "anchors": ["pgp/pinentry/gpg_agent.py:get_passphrase", "pgp/pinentry/gpg_agent.py:send", "pgp/pinentry/gpg_agent.py:clear_passphrase"]}
{"id": "C80", "title": "The agent's answer is the passphrase returned", "statement": "When the agent sends a passphrase as data lines the caller gets exactly that passphrase, and when it reports an error the caller gets an error. (True for one data line with all non-ASCII octets escaped; raw UTF-8, split data and lines before the data give a wrong answer.)", "quantifier": "every passphrase, every division of the stream into pieces", "why_tests_cant": "All passphrases and deliveries.", "anchors": ["pgp/pinentry/gpg_agent.py:get_response,get_passphrase"]}
{"id": "C81", "title": "A message encrypted to public keys is opened by each recipient", "statement": "A message encrypted to any number of public keys, named or hidden, written and read back, is opened by each of the corresponding secret keys with the same message as result, and by no key that refuses the ciphertexts. (True for RSA keys unless a ciphertext begins with a zero octet; refuted for encrypt-only RSA keys, ElGamal keys listed after RSA keys, and hidden recipients alone.)", "quantifier": "every message that can be written, every list of recipients, all session keys and ciphertexts", "why_tests_cant": "All messages, recipient lists and random choices.", "anchors": ["pgp/message.py:public_key_encrypt,PublicKeySessionKey,get_message", "pgp/packets/packets.py:_get_key_and_cipher_algo,_get_encrypted_key", "pgp/transferrable_keys.py:_get_key_obj"]}
{"id": "C82", "title": "A received signature is written back octet for octet", "statement": "Parsing the octets of a version 4 signature packet and serialising the result gives back the same octets, so that forwarding a key or message does not invalidate the signatures in it.", "quantifier": "every version 4 signature packet: any subpackets with any contents and length forms, signatures embedded to any depth", "why_tests_cant": "Unbounded packets and nesting; the loss only shows for contents the tests' authors did not think of.", "anchors": ["pgp/packets/signature_subpackets.py:signature_subpacket_from_data,SignatureSubpacket.__bytes__,from_subpacket_content,content", "pgp/packets/packets.py:SignaturePacket.from_packet_content,SignaturePacket.content"]}
{"id": "C83", "title": "A received key is written back octet for octet", "statement": "Reading the octets of a public key with read_key and writing the result gives back the same octets, so the key keeps its fingerprint and its signatures stay valid; what is exported can be read again.", "quantifier": "every public key file: any number of signatures, user ids, photos and subkeys, any packet header and length forms, any integers", "why_tests_cant": "Unbounded files and forms; the tests round-trip a few keys made by one program, none with a photo exported in the default format.", "anchors": ["pgp/shortcuts.py:read_key,serialize_key", "pgp/transferrable_keys.py:TransferablePublicKey.from_packets,to_packets", "pgp/packets/packets.py:PublicKeyPacket.from_packet_content,content,UserIDPacket,UserAttributePacket,Packet.__bytes__"]}
{"id": "C84", "title": "The list-valued attributes of a signature hold what was assigned", "statement": "After assigning a list of notations, regular expressions, embedded signatures or revocation keys to a signature, reading the attribute gives exactly the items assigned, and every other attribute is unchanged; the trust depth and amount, the revocation reason and code and the parts of the issuer's user id read back as they were assigned.", "quantifier": "every signature object with any subpackets, every assigned list of any length, every order in which a set is iterated", "why_tests_cant": "All lists, all earlier contents and all set iteration orders (which depend on randomised hashes).", "anchors": ["pgp/signature.py:notations,regular_expressions,embedded_signatures,revocation_keys,trust_amount,trust_depth,revocation_reason,revocation_code,issuer_user_name,issuer_user_email,issuer_user_comment,_add_subpacket,_remove_subpacket"]}
{"id": "C85", "title": "The attributes of a received signature are those its octets state", "statement": "Reading the octets of a version 4 signature gives an object whose type, algorithms, times, issuers, preferences, key flags, notations, regular expressions, embedded signatures and other attributes are those RFC 4880 assigns to the subpackets present, with the first subpacket of a type deciding; an attribute that no subpacket states has no value; every signature whose subpackets are of the expected form is read.", "quantifier": "every version 4 signature: any subpackets in any order with any length form and any contents, signatures embedded to any depth", "why_tests_cant": "Round-trip tests cannot see a reader and writer that agree on a wrong bit or type code; the space of subpacket lists is unbounded.", "anchors": ["pgp/packets/packets.py:SignaturePacket.from_packet_content", "pgp/packets/signature_subpackets.py:signature_subpacket_from_data,from_subpacket_content", "pgp/signature.py:BaseSignature.from_packet,_get_subpacket_values"]}
{"id": "C86", "title": "The unhashed area cannot change what a signature says", "statement": "Octets that the signature does not cover (its unhashed subpackets) do not determine the attributes the signature object reports: what the signer stated is kept, and what the signer did not state cannot be added by others.", "quantifier": "every version 4 signature and every change of its unhashed area", "why_tests_cant": "All signatures and all changes an attacker can make to octets that are not signed.", "anchors": ["pgp/signature.py:_get_subpackets,_get_subpacket_values,_get_creation_time,_get_signature_expiration_time", "pgp/packets/packets.py:SignaturePacket.from_packet_content"]}
{"id": "C87", "title": "Packet contents stand for what the standard says", "statement": "For every kind of packet other implementations write - session keys, one-pass signatures, literal and compressed data, integrity protected data, user ids and attributes, public and secret keys, old signatures, with their string-to-key specifiers - reading the octets laid out as in RFC 4880 gives the values stored there, and writing these values gives these octets.", "quantifier": "every value of every field of every packet kind, and every octet string laid out that way", "why_tests_cant": "Round trips also hold for a reader and a writer that agree on another layout; the layout is about all contents.", "anchors": ["pgp/packets/packets.py:PublicKeyEncryptedSessionKeyPacket,SymmetricKeyEncryptedSessionKeyPacket,OnePassSignaturePacket,PublicKeyPacket,SecretKeyPacket,SignaturePacket,LiteralDataPacket,CompressedDataPacket,UserAttributePacket", "pgp/s2k.py:parse_s2k_bytes"]}
{"id": "C88", "title": "Keys and messages are read alike from text, octets and files, armored or not", "statement": "A key or message read from octets, from its armored text, from the octets of that text, or from a file holding any of these (LF or CRLF) is the same key or message, whether or not the caller says that the data is armored; a key written to a file armored or not is read back alike.", "quantifier": "every key and message, every armor header, both values of the armored flag, both line ends", "why_tests_cant": "The detection must not misfire for any content; tests read the forms they know.", "anchors": ["pgp/shortcuts.py:read_key,read_key_file,read_message,read_message_file,serialize_key,write_key_file", "pgp/armor.py:is_armor,ASCIIArmor.from_ascii", "pgp/packets/parsers.py:parse_ascii_packet_data"]}
{"id": "C89", "title": "The key database finds exactly the keys its stores hold", "statement": "After any history of additions, deletions and updates through the database, the outcome of each operation is that of the same operation on the list of keys of the first store that is not secret; a search by fingerprint or key id returns exactly the stored keys with that fingerprint or id, a search by user id exactly the stored keys of which some user id contains the text regardless of case; asking for nothing finds nothing; a key that was added is found; registering a file twice yields the same resource.", "quantifier": "all lists of stores with any keys, all histories of operations with keys of any class, all questions", "why_tests_cant": "tests use one store with a few keys; the claim ranges over all histories and all coincidences of ids", "anchors": ["pgp/db/gpg.py:GPGDatabase.register_resource", "pgp/db/gpg.py:GPGDatabase.add_key", "pgp/db/gpg.py:GPGDatabase.delete_key", "pgp/db/gpg.py:GPGDatabase.update_key", "pgp/db/gpg.py:GPGDatabase.search", "pgp/db/gpg.py:GPGDatabase.keys"]}
{"id": "C90", "title": "Editing one part of a user id keeps the other two", "statement": "Setting the name, the e-mail address or the comment of a user id object yields a user id whose attributes report the new value and the unchanged other two; an address that cannot be represented is refused.", "quantifier": "all user ids, all names, addresses and comments", "why_tests_cant": "tests set a plain name once; the claim ranges over all texts, including those that mail syntax reserves, quotes or encodes", "anchors": ["pgp/transferrable_keys.py:UserID._make_user_id", "pgp/transferrable_keys.py:UserID.user_name", "pgp/transferrable_keys.py:UserID.user_email", "pgp/transferrable_keys.py:UserID.user_comment", "pgp/user_id.py:parse_user_id"]}
{"id": "C91", "title": "A received secret key is written back octet for octet", "statement": "Reading the octets of a secret key with read_key and writing the result gives back the same octets: cipher, string-to-key specifier, initial vector and encrypted part of every secret key and subkey included.", "quantifier": "every secret key file: any number of signatures, user ids, photos and secret subkeys, any protection, any packet header form", "why_tests_cant": "Unbounded files and every combination of protections; tests read a few keys written by one program.", "anchors": ["pgp/shortcuts.py:read_key,serialize_key", "pgp/packets/packets.py:SecretKeyPacket.from_packet_content,content", "pgp/transferrable_keys.py:TransferableSecretKey.from_packets,to_packets,to_public_key"]}
{"id": "C92", "title": "Packets compare equal exactly if they are the same", "statement": "`a == b` of two packets read by parsers.parse_binary_packet_data never raises and is true exactly if header form, packet type and content are the same; it is symmetric and transitive.", "quantifier": "every pair of packets of every type, with any content", "why_tests_cant": "Pairs of unbounded contents; the tests compare a handful of packets with copies of themselves.", "anchors": ["pgp/packets/packets.py:Packet.__eq__,SignaturePacket.__eq__,OnePassSignaturePacket.__eq__,PublicKeyPacket.__eq__,SecretKeyPacket.__eq__", "pgp/s2k.py:SimpleS2K.__eq__,GnuPGS2K.__eq__", "pgp/packets/signature_subpackets.py:SignatureSubpacket.__eq__,__hash__", "pgp/packets/user_attribute_subpackets.py:UserAttributeSubpacket.__eq__"]}
{"id": "C93", "title": "A key's size, key id and key grip are those of its numbers", "statement": "For a key object, bit_length is the number of binary digits of its modulus (RSA) or prime; key_id is, up to version 3, the low 64 bits of that number, and from version 4 on the last sixteen digits of the fingerprint, in upper case hexadecimal; keygrip is the SHA-1 of an expression that no other key material has, so two keys have the same key grip exactly if their numbers are the same, whatever their versions, times and validity periods.", "quantifier": "every version, algorithm, creation time and all numbers of the key material", "why_tests_cant": "Unbounded integers, and a floating-point logarithm in the size; tests look at a few keys of usual sizes, none of which is a power of two.", "anchors": ["pgp/transferrable_keys.py:BasePublicKey.bit_length,key_id,keygrip"]}
{"id": "C94", "title": "An attribute assigned to a key reads back, and changes nothing else", "statement": "After assigning preferences, usage flags, key server, policy, primary user id or expiration time of a key, subkey, user id or user attribute, each attribute reads as the value last assigned to it and every other as before; only the current self-signature is changed, and the key that is written states and signs the new values.", "quantifier": "every key with any signatures, and every sequence of assignments", "why_tests_cant": "All histories of assignments on all signature lists; tests read attributes of a few keys and assign none.", "anchors": ["pgp/transferrable_keys.py:__selfsig_attribute,get_most_recent_selfsig,BasePublicKey._set_expiration_time", "pgp/signature.py:BaseSignature._set_key_expiration_time,_update_subpacket_values"]}
{"id": "C95", "title": "A signed message arrives with signatures that verify, and only over its own content", "statement": "Signing a literal message with an unlocked key succeeds, and what the receiver reads from the octets sent is the same message with the same signatures, each of which verifies with its signer's key, also after encryption; a signature is accepted only if the key's primitive accepts it over exactly the data of the message (with canonical line endings for text signatures) and the signature's own fields.", "quantifier": "every literal message, every list of signers with correct primitives, every hash algorithm and signature type, every signature offered for verification", "why_tests_cant": "All contents, all signers and all forged signatures; tests sign nothing and verify a few stored signatures.", "anchors": ["pgp/message.py:BaseMessage.sign,LiteralMessageBase,TextMessage.to_signable_data,BinaryMessage.to_signable_data,SignedMessageWrapper", "pgp/transferrable_keys.py:BaseSecretKey.sign,BasePublicKey.verify"]}
{"id": "C96", "title": "A compressed message arrives and opens as the message that was compressed", "statement": "Compressing a message with any supported algorithm and level, sending it, receiving it and opening it gives the message back, whatever it is (literal, signed, encrypted, compressed again), so that signatures made before compression still verify; the same holds when it is encrypted after compression.", "quantifier": "every message that can be sent, every compression algorithm and level, every list of signers", "why_tests_cant": "All contents and all nestings; tests decompress one stored packet.", "anchors": ["pgp/message.py:BaseMessage.compress,CompressedMessageWrapper", "pgp/packets/packets.py:CompressedDataPacket"]}
{"id": "C97", "title": "Making a signature changes neither earlier signatures nor the caller's subpackets", "statement": "Signing any number of items, with or without a list of extra subpackets, leaves that list and every signature made before as they were, and each signature is the one its call alone would make.", "quantifier": "every sequence of calls of sign and every list of extra subpackets", "why_tests_cant": "All histories of calls sharing a list; no test signs twice with one list.", "anchors": ["pgp/transferrable_keys.py:BaseSecretKey.sign", "pgp/signature.py:BaseSignature.__init__"]}
{"id": "C98", "title": "Merging combines copies of one key and never two different keys", "statement": "When keys are merged with a database, two keys are taken for copies of one another exactly if the public parts of their key packets are the same octets (up to a changed expiration in versions 2 and 3); this is an equivalence relation, a key is never merged with another key, and a copy in the database is always found, whether the key is locked or not.", "quantifier": "every pair of received key packets and every list of keys found in the database", "why_tests_cant": "All pairs of keys; tests compare none.", "anchors": ["pgp/merge.py:keys_equivalent,merge,merge_key"]}
{"id": "C99", "title": "Every keyring file can be opened as a key database, and only keyring files are", "statement": "Opening a file that holds keys gives a database with all of them, never taking it for a database of another kind; a new file is made if asked for; a database that has become empty can still be opened; files of other kinds are refused with an error; the file opened is the one named.", "quantifier": "every file name, every content of the file and every setting", "why_tests_cant": "All file contents, whose first octets decide; tests open two stored files.", "anchors": ["pgp/db/gpg.py:get_resource,Keyring.__init__,GDBM.__init__,BaseResource.__init__"]}
{"id": "C100", "title": "A signing subkey is accepted exactly with a valid back signature", "statement": "When a signature binding a subkey that may sign is validated, it is accepted exactly if it carries an embedded primary key binding signature made by the subkey over both keys; other subkeys need none.", "quantifier": "every binding signature: any usage flags, any list of embedded signatures, any keys", "why_tests_cant": "All embedded signatures, genuine or forged; tests validate a few stored keys.", "anchors": ["pgp/signature_verification.py:check_back_signatures,get_hashed_subpacket_data,validate_key_signature"]}
{"id": "C101", "title": "The output limit is kept, and output within the limit is written whole", "statement": "With a limit of n octets on the output, output of at most n octets is written completely and in order, longer output is refused and never more than n octets are written; without a limit everything is written.", "quantifier": "every limit, every output and every way of it being handed over in pieces", "why_tests_cant": "All sizes around the limit and all ways to cut the output; no test writes output.", "anchors": ["pgp/commands/gpg/io_helper.py:IOHelper.write_output", "pgp/commands/gpg/exceptions.py:FatalException"]}
{"id": "C102", "title": "Status, log and attribute output goes to the place chosen for it and nowhere else", "statement": "A status line, log line or attribute packet is written exactly once, to the descriptor or file the user chose for it, or to standard error if none was chosen for the log, and to nothing else.", "quantifier": "every choice of descriptors and files, and every text", "why_tests_cant": "All combinations of options; no test uses one.", "anchors": ["pgp/commands/gpg/io_helper.py:IOHelper.write_status,write_log,write_attribute,open_fd,open_filename"]}
{"id": "C103", "title": "The photo viewer's command is the template with its marks replaced, and gets the photo", "statement": "Viewing a photo runs the command of the template with %i, %I, %k, %K, %f, %t, %T, %v, %V, %U and %% each replaced once by what it stands for and all else left as it is, and the photo is given to the command: in the file named if the template names one, otherwise on its input.", "quantifier": "every template, every photo and every key", "why_tests_cant": "All templates and all values, which may contain marks themselves; no test views a photo.", "anchors": ["pgp/commands/gpg/io_helper.py:IOHelper.view_photo"]}
{"id": "C104", "title": "The digest and compression used are those named by the options", "statement": "A message signed on the command line uses the digest named by --digest-algo, else the first of the personal preferences, else SHA-512; it is compressed with the algorithm named by --compress-algo, else the first of the personal preferences, else ZIP, at the level of -z or else of --compress-level; names that are not known are refused, and a level of 0 disables compression.", "quantifier": "every combination of options, every text as a name, every message", "why_tests_cant": "All names and combinations of options; a wrong name goes unnoticed, since the message is signed all the same.", "anchors": ["pgp/commands/gpg/algorithm_helper.py:AlgorithmHelper", "pgp/commands/gpg/sign.py:Command", "pgp/commands/gpg/arguments.py:make_argparser"]}
{"id": "C105", "title": "Lines beginning with From are escaped before signing", "statement": "With --escape-from-lines (the default) every line of the text that begins with 'From ' is prefixed with '- ', all other lines are signed as they are, and the escaping can be undone.", "quantifier": "every text, with any number of lines", "why_tests_cant": "All texts; tests do not reach the command.", "anchors": ["pgp/commands/gpg/message_.py:MessageCommand.file_to_literal_message"]}
{"id": "C106", "title": "A keyring is a mapping from ids to keys", "statement": "After any history of additions, deletions and updates, items(), values(), membership and iteration of a keyring agree with look-up: items() gives every id with the key that looking it up gives, an id is in the keyring exactly if looking it up succeeds, and iterating gives the ids.", "quantifier": "every keyring file, every history of operations, every text looked for", "why_tests_cant": "All files and histories, ids that collide, and texts of any length.", "anchors": ["pgp/db/gpg.py:BaseResource", "pgp/db/gpg.py:Keyring.keys", "pgp/db/gpg.py:Keyring.get_transferrable_key"]}
{"id": "C107", "title": "Output never overwrites its input", "statement": "The output for a named input file goes to the file of that name with .asc (armored) or .gpg added: never the input file itself, different for different inputs, and different for armored and binary output.", "quantifier": "every file name", "why_tests_cant": "All names, including ones that end in .asc or .gpg already.", "anchors": ["pgp/commands/gpg/formatter.py:Formatter.make_output_filename"]}
{"id": "C108", "title": "Signatures belong to the parts they follow", "statement": "In a key object read from packets, the primary key, every user id, every user attribute and every subkey carries exactly the signatures that followed its packet, in that order; no signature is lost, moved or doubled, and user ids, attributes and subkeys keep their order.", "quantifier": "every sequence of packets that forms a key, with any number of user ids, attributes, subkeys and signatures", "why_tests_cant": "Tests read a few keys; a loop that attaches the signatures of the last part to the wrong one shows up only for certain arrangements.", "anchors": ["pgp/transferrable_keys.py:TransferablePublicKey.from_packets", "pgp/utils.py:SignatureIterator", "pgp/user_id.py:UserID.from_packet"]}
{"id": "C109", "title": "Certifications arrive with the key and verify", "statement": "If a key that was read is certified at any of its parts (direct key signature, certification of a user id or attribute, subkey binding) with a working signing key, the key can be written, read back by anyone, carries the new signature at the end of that part and is otherwise unchanged, and the signature verifies over the octets of the packets of the key. The same octets are signed for a secret key and its public half.", "quantifier": "every well-formed key file, every part of it, every signing key whose primitives are correct, all subpackets that can be written", "why_tests_cant": "The octets hashed depend on all parts of the key and must be the same before writing and after reading, for all keys.", "anchors": ["pgp/transferrable_keys.py:BaseSecretKey.sign", "pgp/transferrable_keys.py:BasePublicKey.to_signable_data", "pgp/user_id.py:UserID.to_signable_data", "pgp/packets/packets.py:get_content_for_signature_hash"]}
{"id": "C110", "title": "A secret key file is opened by its passphrase, and by that alone", "statement": "A secret key file whose key packets are protected by a passphrase in the way RFC 4880 prescribes is read; the key read is unlocked by that passphrase; then the primary key and every subkey sign with exactly the numbers that were protected in the packet of that key, handed to the cryptographic library in the library's order. Another passphrase is refused unless the octets it decrypts end in their SHA-1 for every key packet.", "quantifier": "every well-formed secret key file with any number of subkeys, user ids and signatures, every key algorithm, cipher, hash, specifier and salt, every passphrase, every block cipher and digest of the right sizes", "why_tests_cant": "It composes framing, key grammar, string-to-key, CFB, integer parsing and the order of values for all files and passphrases.", "anchors": ["pgp/transferrable_keys.py:TransferableSecretKey.unlock", "pgp/transferrable_keys.py:BaseSecretKey.unlock", "pgp/transferrable_keys.py:BaseSecretKey._get_key_obj", "pgp/packets/packets.py:SecretKeyPacket", "pgp/s2k.py:S2KSpecification.to_key", "pgp/shortcuts.py:read_key"]}
{"id": "C111", "title": "From a secret key file to a signature verified with the exported public key", "statement": "The owner of a protected secret key file reads it, exports its public half to a second file, unlocks the secret key with the passphrase and signs; whoever reads the second file finds, in the same order, the public keys that belong to the parts of the secret key, and each accepts what the corresponding secret part signs: keys, user ids, images, documents, and literal messages sent as a whole.", "quantifier": "every well-formed protected secret key file, every part of it, every cryptographic library whose verification accepts what it signs, every passphrase, hash, signature type, subpacket and literal message", "why_tests_cant": "The public and the secret object are built by different code from different files; that both hand the same numbers, in the same order and under the same key id, to the library is a claim about all keys.", "anchors": ["pgp/transferrable_keys.py:BasePublicKey._get_key_obj", "pgp/transferrable_keys.py:BaseSecretKey._get_key_obj", "pgp/transferrable_keys.py:BasePublicKey.verify", "pgp/transferrable_keys.py:BaseSecretKey.sign", "pgp/transferrable_keys.py:TransferableSecretKey.to_public_key", "pgp/utils.py:sign_hash", "pgp/utils.py:verify_hash", "pgp/shortcuts.py:read_key"]}
{"id": "C112", "title": "A message encrypted to exported public keys is opened with the secret key files", "statement": "People give out the public halves of their protected secret key files. Someone reads these files, encrypts a message to any of the keys in them, named or hidden, and sends it; each owner reads the secret key file, unlocks it with the passphrase, and opens what arrives with the part of the key it was encrypted to: the message is the one that was sent.", "quantifier": "every number of recipients, every well-formed protected secret key file, every part of it, every message that can be sent, every session key and cipher, every library whose decryption inverts its encryption", "why_tests_cant": "It needs the numbers of the key, the octets of the exported file, the encoding of the ciphertexts and the data packet to fit together for all keys and messages.", "anchors": ["pgp/message.py:public_key_encrypt", "pgp/message.py:PublicKeySessionKey", "pgp/packets/packets.py:PublicKeyEncryptedSessionKeyPacket", "pgp/transferrable_keys.py:BasePublicKey._get_key_obj", "pgp/transferrable_keys.py:BaseSecretKey._get_key_obj", "pgp/transferrable_keys.py:TransferableSecretKey.to_public_key", "pgp/message.py:EncryptedMessageWrapper.get_message"]}
{"id": "C113", "title": "Armored text has the form of RFC 4880, section 6, and every text of that form is read", "statement": "What ASCIIArmor writes is, character for character, the header line for the kind of data and the part of a message, the given headers, an empty line, the base64 of the data in lines of at most 72 characters, the base64 of its CRC, and the tail line. Conversely every text of that form, whoever wrote it, is read to the data it stands for: with any headers in any order, any line lengths, blank lines before it and anything after it.", "quantifier": "all kinds of data and part numbers, all data, all headers, all ways to break the base64 into lines, both line ends", "why_tests_cant": "Round trips of the library's own texts do not show that other programs can read them, nor that texts of other programs are read; both range over all data and all layouts.", "anchors": ["pgp/armor.py:ASCIIArmor.__str__", "pgp/armor.py:ASCIIArmor.from_ascii", "pgp/armor.py:header_line_expr"]}
{"id": "C114", "title": "Several keyring objects on one file see the same keys", "statement": "Objects made for the same keyring file, in one process or in several, may be used in turn: no change made through one of them is lost or spoiled by the others, each finds the keys that are in the file, and an operation on a key concerns that key and no other. (Only additions are safe; false for look-ups and deletions, because the objects remember where in the file the keys were.)", "quantifier": "every keyring content, number of objects, sequence of operations and choice of the object for each of them", "why_tests_cant": "It ranges over all interleavings of operations by any number of objects; the tests use one object.", "anchors": ["pgp/db/gpg.py:Keyring.add_transferrable_key", "pgp/db/gpg.py:Keyring.delete_transferrable_key", "pgp/db/gpg.py:Keyring.get_transferrable_key", "pgp/db/gpg.py:Keyring._update_offset_table"]}
{"id": "C115", "title": "Data that is cut short is detected", "statement": "A key or message of which the end is missing, because a transfer stopped or a disk was full, is not taken for a complete one: reading it raises an exception. (True of armored text cut anywhere, and of packets cut within a header or within a public key; false of packets cut within other contents: the reader takes what is left as the content, so that a shorter user id, a shorter document or a message without its signatures is read without any exception.)", "quantifier": "every armored text and every place to cut it; every sequence of packets, in either header format, and every place to cut it", "why_tests_cant": "It ranges over all data and all places where it may end; tests read complete files.", "anchors": ["pgp/packets/parsers.py:parse_binary_packet_data", "pgp/packets/packets.py:packet_from_packet_data", "pgp/armor.py:ASCIIArmor.from_ascii", "pgp/message.py:SignedMessageWrapper", "pgp/shortcuts.py:read_key", "pgp/shortcuts.py:read_message"]}
{"id": "C116", "title": "Requests to a keyserver", "statement": "For the URL of a keyserver (hkp, hkps, http or https, in any case, with any host, port and path) requests go to that host over the transport the URL names and below its path; there is no client for other schemes. A search or a request for a key asks for exactly the given terms or identifier, whatever characters they contain. A key that is submitted arrives as it is, and a key that is got is the key asked for; a secret key is not sent. (False for https, which becomes http, for the port of hkp, for the identity of the key received, for answers with anything in front of the armor, and for secret keys.)", "quantifier": "all URLs, search terms, identifiers, keys and answers", "why_tests_cant": "The tests do not use the client at all; it ranges over all texts and keys.", "anchors": ["pgp/keyserver/__init__.py:get_keyserver", "pgp/keyserver/hkp.py:HKPKeyserverClient.__init__", "pgp/keyserver/hkp.py:HKPKeyserverClient.get_url", "pgp/keyserver/hkp.py:HKPKeyserverClient.submit_url", "pgp/keyserver/hkp.py:HKPKeyserverClient.get", "pgp/keyserver/hkp.py:HKPKeyserverClient.search", "pgp/keyserver/hkp.py:HKPKeyserverClient.submit"]}
{"id": "C117", "title": "What malformed data does", "statement": "Whatever is given to be read as armor, packets, a signature, a key or a message, reading ends, and ends with a result or with an exception from a known list; a caller who catches the library's exceptions and ValueError has caught them all. (The lists are exact; the last part is false: IndexError, AssertionError, TypeError, NotImplementedError, UnboundLocalError and AttributeError occur as well. Nesting of signatures in signatures is not limited.)", "quantifier": "all texts and all octets, of any length and nesting", "why_tests_cant": "It is a statement about every input; each function on the way has its own ways to fail.", "anchors": ["pgp/armor.py:ASCIIArmor.from_ascii", "pgp/packets/parsers.py:parse_binary_packet_data", "pgp/packets/parsers.py:parse_binary_packet_stream", "pgp/packets/packets.py:SignaturePacket.from_packet_content", "pgp/shortcuts.py:read_key", "pgp/shortcuts.py:read_message", "pgp/transferrable_keys.py:validate_transferrable_key", "pgp/message.py:open_pgp_message_from_packets"]}
{"id": "C118", "title": "Whether, and why, a part of a key is revoked", "statement": "key.revoked, subkey.revoked, user_id.revoked and user_attribute.revoked are True exactly if the part carries a valid revocation by the key itself or by an appointed revoker; revocation_reason and revocation_code give the reason stated in it; revocation_keys gives all appointed revokers; current_self_signatures gives the self-signatures in force. (What is tested is only type, named issuer and expiry: nothing is verified, appointed revokers do not count, subkey revocations cannot be read, the reason is never given.)", "quantifier": "every key, part, list of signatures, time and digest function", "why_tests_cant": "The answer depends on every combination of signatures a key can carry, including forged ones.", "anchors": ["pgp/transferrable_keys.py:SignedMixin.self_signatures", "pgp/transferrable_keys.py:SignedMixin.current_self_signatures", "pgp/transferrable_keys.py:SignedMixin.revocation_signatures", "pgp/transferrable_keys.py:SignedMixin.revoked", "pgp/transferrable_keys.py:SignedMixin.get_most_recent_selfsig"]}
{"id": "C119", "title": "The key a message is encrypted to", "statement": "A message for a recipient is encrypted to a subkey of the recipient's key that is marked for encryption by the self-signature in force and is neither revoked nor expired nor of an algorithm that cannot encrypt; to the primary key only if there is no such subkey and it is so marked; and if there is neither, or the key is revoked, to nothing. (Marks in certifications of user ids, expiry and algorithms are not looked at.)", "quantifier": "every key, with any number of subkeys and signatures, and every time", "why_tests_cant": "It is a statement about all keys; each combination of flags, revocations, expiry and order of subkeys and signatures is another case.", "anchors": ["pgp/commands/gpg/recipient_helper.py:RecipientHelper.find_recipient_public_key", "pgp/transferrable_keys.py:SignedMixin.revoked", "pgp/transferrable_keys.py:SignedMixin.get_most_recent_selfsig", "pgp/signature.py:BaseSignature.may_encrypt_comms"]}
{"id": "C120", "title": "A key stored in a keyring file is found there and comes out as it went in", "statement": "Storing a key that was read from its octets into a keyring file accepts it, appends its packets to the file, in the header format of the file, and leaves the other keys alone; replacing or removing a key changes nothing else; afterwards, and after opening the file anew, every key in the file, old or new, public or secret, is found under any text with the last eight digits of its fingerprint unless a later key shares these digits, and the key found gives back exactly its octets; under other texts nothing is found. Storing a key never makes the file unreadable.", "quantifier": "all keyring files made of keys, all histories of stored, replaced and removed keys of any size, all header formats, all texts looked up", "why_tests_cant": "there are infinitely many keyrings and sequences of keys; whether what is appended is read back the same way depends on the packet formats of both the file and the key", "anchors": ["pgp/db/gpg.py:Keyring", "pgp/shortcuts.py:read_key", "pgp/transferrable_keys.py:TransferrablePublicKey.to_packets", "pgp/packets/packets.py:Packet.__bytes__", "pgp/packets/parsers.py:parse_binary_packet_stream"]}
{"id": "C121", "title": "A search finds exactly the keys that match", "statement": "In a database of keyring files, a search for a text returns exactly the stored keys with a user id that contains the text regardless of case, each as it was stored, in the order of the files and of the keys in them; a search for a fingerprint or key id returns exactly the stored keys with that fingerprint or id.", "quantifier": "all databases of any number of keyring files with any number of keys of any size, public or secret, in any header formats; all texts and ids searched for", "why_tests_cant": "there are infinitely many databases and search texts; a test only shows that some key is found in some keyring, not that no other is and none is missed", "anchors": ["pgp/db/gpg.py:GPGDatabase.search", "pgp/db/gpg.py:GPGDatabase._matches_user_id", "pgp/db/gpg.py:Keyring.get_transferrable_key", "pgp/transferrable_keys.py:UserID"]}
{"id": "C122", "title": "Saving a key again changes nothing", "statement": "Whatever octets a key or signature was read from, what is written for it can be read again, and is then written with exactly the same octets: reading and writing may tidy a key up once, but a key does not change, lose parts or become unreadable by being saved over and over.", "quantifier": "all octet strings that are read as a key (public or secret, with any number of user ids, images, subkeys and signatures, nested to any depth) or as a signature packet, however untidily they were written; all header formats to write in; any number of saves", "why_tests_cant": "a round-trip test starts from octets that some tidy writer made; the property is about everything the readers accept, including loose integers, unusual lengths, reserved flags, invalid UTF-8 and unused trailing parts", "anchors": ["pgp/transferrable_keys.py:TransferablePublicKey", "pgp/packets/packets.py:SignaturePacket", "pgp/packets/signature_subpackets.py", "pgp/packets/packets.py:PublicKeyPacket", "pgp/shortcuts.py:serialize_key"]}
{"id": "C123", "title": "A message is passed on unchanged", "statement": "Whatever octets a message was read from, what is written for it is read as the same message - the same text or octets, name and time, the same session keys and encrypted data, the same signatures - and is then written with exactly the same octets.", "quantifier": "all octet strings that are read as a message (literal, compressed, encrypted to any number of keys and passphrases, signed with any number of signatures), however they were written", "why_tests_cant": "a round-trip test starts from a message the library itself made; the property is about everything its reader accepts, including other header formats, bodies in chunks, other text encodings, trailing packets and untidy signatures", "anchors": ["pgp/message.py", "pgp/packets/packets.py:LiteralDataPacket", "pgp/packets/packets.py:SignaturePacket", "pgp/packets/packets.py:OnePassSignaturePacket"]}
{"id": "C124", "title": "The numbers of a signature can be taken from its packet", "statement": "get_signature_values, given the octets of a signature packet, returns exactly the integers behind the left octets of the hash, in order, whatever the subpackets hold and however the integers are written; they are the integers of the signature that the library reads from the same octets; octets that are cut off raise IndexError and nothing else.", "quantifier": "all octets of signature packets of version 2, 3, 4 and later, with subpacket areas of any content and any number of integers of any size; all octets at all for the exceptions", "why_tests_cant": "the function finds the integers by walking over areas of any length and content; a test has a few packets", "anchors": ["pgp/utils.py:get_signature_values", "pgp/utils.py:mpi_to_int", "pgp/packets/packets.py:SignaturePacket.from_packet_content"]}
{"id": "C125", "title": "A signature made from its parts has these parts", "statement": "A signature object made with a version, types, numbers, subpackets, a creation time and the key id of an issuer has these: creation_time and issuer_key_ids answer them, its packet holds them, and what is written for it is read as a signature with the same parts.", "quantifier": "all versions, algorithm numbers, times, key ids, lists of subpackets (signatures in signatures included) and integers", "why_tests_cant": "the parts can be combined in unboundedly many ways and each goes through another attribute", "anchors": ["pgp/signature.py:BaseSignature.__init__", "pgp/signature.py:BaseSignature.to_packet", "pgp/signature.py:BaseSignature.from_packet", "pgp/signature.py:BaseSignature._get_creation_time", "pgp/signature.py:BaseSignature._get_issuer_key_ids"]}
{"id": "C126", "title": "Signing a file on the command line writes the signature and harms no file", "statement": "The commands to sign, clear-sign and sign detached write the signed message, or the signature, to the file that bears the name of the file signed and the extension for armor or octets; the file signed and all others are left alone, and a command that fails leaves every file as it was.", "quantifier": "all files and contents, keys, options and the three commands", "why_tests_cant": "every command line, file system and key combines into another run, and the harm shows only in which files exist and what they hold afterwards", "anchors": ["pgp/commands/gpg/sign.py:Command.run", "pgp/commands/gpg/sign.py:Command.sign_message", "pgp/commands/gpg/clearsign.py:Command", "pgp/commands/gpg/detach_sign.py:Command.output", "pgp/commands/gpg/message_.py:MessageCommand.file_to_literal_message", "pgp/commands/gpg/io_helper.py:IOHelper.write_output"]}
