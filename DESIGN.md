# Formal model of mitchellrj/python-pgp in Lean 4

## 1. Method

* The model is a *shallow*, branch-by-branch transcription of the Python functions into total Lean functions.
  Every definition cites the file and lines in `/repo` it models; simplifications are stated in that comment.
* `Bytes := List UInt8` models `bytes`/`bytearray`. Python slices clamp, indexing raises `IndexError`,
  `bytearray.append(n)` / `bytearray([n])` with `n > 255` raises `ValueError`.
* Exceptions are values: every function that can raise returns `Except PyErr α`, where `PyErr` is the exception class.
* A loop is structural recursion, or takes a fuel argument; a theorem then shows the fuel suffices (or, for a
  non-terminating loop, that no amount of fuel suffices).
* Cryptographic primitives (hash functions, block ciphers other than IDEA, RSA/DSA/ElGamal, zlib), the random source
  and the clock are parameters. Any contract assumed of them appears as a hypothesis in the theorem.
* `math.log(i, 2)` (floating point) is a parameter `fl : Nat → Nat` standing for `int(math.log(i,2))`; the hypotheses
  used are either "exact" or "never undershoots".
* Specifications are in `Verif/Spec/*.lean`, written without reference to the model. Property theorems are in
  `Verif/Props/*.lean`, one file per area, apart from helper lemmas (`Verif/Lemmas/*`). Next to each theorem an
  `example` shows that a concrete non-trivial case meets its hypotheses.
* When the code violates a property, the negation is proved with a concrete witness (or in general) and the part
  that holds is proved under a name ending in `_partial`.

## 2. Plan per property

| id | modelled | proof |
|----|----------|-------|
| C01,C02 | utils.py integer codecs on byte lists | arithmetic, induction on the bytes |
| C03,C04 | int_to_mpi / mpi_to_int with float-log oracle | induction on list of integers; refutation of canonicity under an overshooting oracle |
| C05–C08 | the four length readers, two writers | case analysis + omega |
| C09–C13 | Packet.__bytes__, packet_from_packet_data/stream, parse_binary_packet_data | framing lemmas, induction on lists/chunks/fuel; Spec/Streams describes received octets independently of the writer (any header form, any definite length form): both parsers return exactly the packets |
| C14 | serialisation loop with fuel | no fuel suffices above 2^32-1 |
| C15,C16 | crc24.py with its literal table | table = bitwise spec by complete-table decide; linearity; GF(2) injectivity of 3 steps |
| C17,C18 | armor.py writer/reader on character lists, real base64 | line-splitting lemmas, induction |
| C19–C21 | s2k.py, count codec | complete-table decide lifted; loop invariants |
| C22,C23 | public key packet parse/serialise, fingerprint input | field-by-field roundtrip, injectivity |
| C24,C25 | subpackets, v4 signature packet | roundtrip per kind, induction on the list |
| C26 | PKESK, SKESK, OPS | roundtrip; OPS refuted |
| C27,C28 | hash_packet_for_signature, sign_hash/verify_hash | injectivity of framing; primitives as parameters; the numbers handed to and taken from them (Spec/SignValues) |
| C29,C30 | message.py encrypt/decrypt | cipher mode as inverse pair; SHA-1 as parameter |
| C31 | cipher/base.py modes | induction on blocks |
| C32 | cipher/aidea.py in full | group laws mod 65537 / 65536, rounds are involutive |
| C33,C34,C55,C56 | db/gpg.py as state machine on file octets / resources | refinement to list of keys where it holds; refutations |
| C35,C36 | validate_transferrable_key automaton, from_packets/to_packets | inductive grammar ⇔ automaton |
| C37,C38 | message.py dispatch and session key loop | case analysis / induction |
| C39,C40,C42 | merge.py, signature_verification.py decision logic | decision logic stated outright |
| C41 | lock/unlock state machine with failure points | invariant by induction on histories |
| C43,C58 | regex.py, user_id.py scanners | termination + grammar |
| C44 | hex | induction |
| C45 | session key block and ElGamal PKCS1 padding | roundtrip |
| C46 | regex substitution of TextMessage | refutation + characterisation |
| C47 | compression wrappers over an abstract zlib | state machine; refutation |
| C48 | cipher selection loop | decision logic |
| C49 | parse_signature_subpacket dispatch | decision logic |
| C50,C51,C54 | secret key, image attribute, literal packets | roundtrip |
| C52 | subpacket get/set helpers | laws for any history |
| C53,C57,C59 | small functions | direct |
| C60 | hashed/unhashed area readers | witness for every subpacket |
| C61 | ElGamal/DSA session key encryption wrappers | case analysis, refutation |
| C62,C67 | passphrase session keys, whole encrypted messages | composition of C19, C26, C29, C45 |
| C63 | the file system calls of each keyring operation; a crash may come between two calls or tear a write | the states found are characterised exactly, over any history (C33); the refutations open the files found |
| C64 | trust, user id, MDC, marker packets | roundtrip |
| C65 | recipient_helper.py, algorithm_helper.py, encrypt.py | induction on the recipients |
| C66 | Message.from_packets / to_packets | composition of packet round trips; witnesses |
| C68–C70 | expiration and revocation accessors of keys and signatures | decision logic over lists of signatures |
| C71 | make_public_key_object / to_public | noninterference: two secret keys with equal public values |
| C72–C77 | parse.py on pgpdump packets | fold invariants; automaton ⇔ inductive grammar |
| C81 | public_key_encrypt with RSA/ElGamal recipients | composition of C26, C29, C38, C45, C66 |
| C82 | signature_subpackets.py readers and writers, SignaturePacket v4 | wire grammar in Spec/SigWire; exact characterisation of the kept contents by inversion, whole packets by mutual induction over the grammar |
| C83 | shortcuts.py read_key/serialize_key composed from framing, packet classes and key objects | file grammar in Spec/KeyFile; a relation between octets and packet objects, closed under concatenation, then C36; refutations by inversion of the framing loop |
| C84 | signature.py list-valued setters as a fold over an arbitrary iteration order of the set, trust and revocation attributes, issuer parts | invariants of the fold for add-only and remove-only runs; refutations for every signature |
| C85 | packets.py and signature_subpackets.py readers composed with the signature object getters | Spec/SigMeaning gives the octets of raw subpackets and what each states; reading is shown to be a map over raw subpackets, then case analysis by attribute |
| C86 | the same readers and getters | comparison of two signatures with the same hashed subpackets; refutation by appending one subpacket |
| C87 | the readers and writers of all packet contents | the layouts of RFC 4880 stand in the theorems (specifiers: Spec/PacketWire); reader and writer are evaluated on them for arbitrary field values |
| C88 | detection of armor, decoding of text files with universal newlines, `read_key`, `read_message`, `write_key_file` | the first octet of a written packet is at least 128, so packets are never taken for armor; every armor text is ASCII if its headers are, so decoding returns it; C17 reads it, C83 gives the key; failures by evaluating the first octet |
| C89 | `GPGDatabase.register_resource`, `add_key`, `delete_key`, `update_key`, `keys`, `search` over keyring files; key construction and `str.lower` are parameters | simulation of the database by a list of stores (Spec/Database), on top of the keyring simulation of C33; searches computed from the simulated stores |
| C90 | `UserID.user_name`, `user_email`, `user_comment` and setters, `_make_user_id`, `email.utils.formataddr` (encoded words are a parameter) | the three forms written are parsed back, by the reading lemmas of C58 extended to a trailing comment |
| C91 | read_key, serialize_key and to_public_key for secret keys, composed from framing, SecretKeyPacket and key objects | the relation of C83 extended by secret key contents; for the public half a map on packet objects that commutes with to_packets |
| C92 | `__eq__` of all packet classes, of specifiers and of (attribute) subpackets, on packets read from any content | each class: equality decides equality of the fields; the fields determine the content (C82, C87); signatures: sets of subpackets through the raw octets; symmetry and transitivity by cases |
| C93 | `bit_length`, `key_id`, `keygrip` of key objects; the rounded-up logarithm is a parameter, of which only being right at the number in question is assumed | number of binary digits against the least power above; hexadecimal digits by append; decimal digits end at the closing parenthesis, so the expression determines the numbers; key grip equality up to a hash collision |
| C94 | the setters of `__selfsig_attribute`, of the expiration time of keys and of the key expiration time of signatures | the choice of the self-signature looks at type, time and issuers only, which no assignment changes; induction over the history with the signature histories of C52; four octets of a negative number by linear arithmetic |
| C95 | `BaseMessage.sign`, `to_signable_data` of literal messages, `verify` on messages, over the models of signing, of packets and of messages | what is signed is the data (C46); the made signature is writable (C28), the message sendable (C66, C67), verification repeats the computation (C28); soundness by C28_verify_sound |
| C96 | `BaseMessage.compress`, `CompressedMessageWrapper`, over C47 | packets of a sendable message survive compression (C47) and are read as the message (C66) |
| C97 | aliasing of the list given to `sign`: the caller's list and where each signature keeps its hashed subpackets | induction over the calls; lengths of the hashed octets differ |
| C98 | `keys_equivalent` as equality of the compared fields of the key packets; which candidate `merge_key` takes | both packet contents read by `publicKey_read`, injectivity of the MPI layout (Spec/Merge `SameKey`) |
| C99 | `get_resource` with the constructors of what it makes; file system as a function from names to contents | first octet of a key packet against the eight magic octets; C33 for the keys read |
| C100 | `check_back_signatures`, `get_hashed_subpacket_data`, `validate_key_signature` | the embedded signatures and flags as the octets state them (C85), then cases of the loop |
| C101 | `write_output`: the loop of reads of 1024 octets and writes | induction on the octets left |
| C102 | `write_status`, `write_log`, `write_attribute`, which destination gets what | cases of the options |
| C103 | `view_photo`: nine replacements in a row, then the file | templates as lists of pieces (Spec/Output); one lemma for each replacement |
| C104 | the part of `AlgorithmHelper` for digests and compression, and what the sign command does with it | case distinction against tables of names (Spec/Options) |
| C105 | `re.sub(r'^From ', …)` without MULTILINE | texts as lists of lines (Spec/Options); the lines of a text are unique |
| C106 | `items`, `values`, `__contains__`, `__iter__` of a keyring over its offset table | from the invariant of C33 for every history |
| C107 | `make_output_filename` | cancellation and last characters |
| C108 | `from_packets` as a whole, with `SignatureIterator` | blocks of packets (Spec/Certify); every accepted sequence is an arrangement of groups (Lemmas/Certify), and the reader inverts it |
| C109 | `add_signature` on a part, `to_signable_data` of every part | insertion into the arrangement keeps it well-formed; write and read (C83, C91) then sign/verify (C28) |
| C110 | `read_key`, the secret key objects in the key, `unlock` of the whole key, `_get_key_obj` | protected packets (Spec/Unlock) read (C87, C91), arrangement of the key (C108), then S2K (C20), CFB and integers (C50), numbers in order (C41) |
| C111 | both files read, `to_public_key`, `unlock`, `_get_key_obj` of both classes, `sign`, `verify` over a library given as functions of the lists of numbers | C91 for the exported file, C110 for the numbers, C93 for the key ids; a key that signs as one and verifies as the other is put into C28 and C95 |
| C112 | as C111, with `PublicKeySessionKey` and `_get_key_and_cipher_algo` over the same library | the objects read from the two files (C111) are recipients and holders of C81 |
| C113 | as C17/C18; base64, the labels and the layout are given independently in `Spec/ArmorText` | the writer's base64 satisfies the relation, which is functional; the reader's loops are run over an arbitrary text of the form |
| C114 | a keyring file and any number of objects with their own offset tables | invariant: each object's table describes a prefix of the file's keys; a concrete interleaving for every keyring refutes the rest |
| C115 | the armor reader, the packet readers (memory and stream, definite and chunked lengths) and the readers of keys and messages (already modelled) on every prefix of well-formed data | lines left of a cut text; the packet reader's slices at the end of the data; monotonicity of the key reader |
| C116 | the URLs the keyserver client makes of the given one, its forms, and the key it makes of an answer; urllib.parse as far as it is used | inversion of URL splitting for the grammar of keyserver URLs; forms as an inductive relation with a uniqueness proof; C83, C88 and C91 for the keys |
| C117 | the readers of armor, packets, signatures, keys and messages (already modelled) on arbitrary input | a compositional calculus of possible exceptions, induction over loops and over nested signatures; witnesses for each exception; nested signatures built by recursion |
| C118 | `self_signatures`, `current_self_signatures`, `revocation_signatures`, `revoked`, `revocation_reason`, `revocation_code`, `revocation_keys` of every part of a key object; time and digest are parameters | induction over the signature lists; the key ids through C93 and the packets of a key file through C83/C108; refutations from the grammar (C35) and from C69 |
| C119 | `find_recipient_public_key` on key objects, over the models of `revoked` (C118) and of the attributes of keys (C42) | exact condition per part from C118 and C42, induction over the subkeys; the abstraction of C65 is shown to make the same choice |
| C120 | the keyring file of C33 with its parameters filled in by the packet parsers and key objects of C83 and C91 | every key file is one well-formed block of the keyring with the fingerprint's digits; a change of header formats keeps a key file a key file; then the simulation of C33 carries over to any history of storing, replacing and removing. The broken image header is followed through the stream reader |
| C121 | `GPGDatabase.search` with the key objects of C83 and C91 | the user ids of the key read are the texts of its user id packets (arrangement of keys, C108); then C89 with its parameters filled in as in C120 |
| C122 | the readers and writers of keys and signatures, from arbitrary octets | inversion of every reader: what it accepts satisfies an invariant (`Written`) under which the writer's output is in the grammar of C91/C82, by induction over subpackets, nesting and packets; then the round trip of the key reader; concrete octets for the two exceptions |
| C123 | the readers and writers of messages (C37, C66), from arbitrary octets | shape lemmas for every message packet reader; signatures through the invariant of C122 with the issuers followed from octets to octets; then C37's grammar and C66 |
| C124 | `get_signature_values` (Model/Utils) | offsets followed through the octets; the loop over integers of C85; exceptions as in C117 |
| C125 | `BaseSignature.__init__`, `to_packet` (Model/Signature) | round trip of C24 for the part that holds; the other constructions by cases on the version |
| C126 | the sign commands as functions on the files (Model/SignCommand) | case analysis of the run for all options, keys and files; success of `sign` from C95_signs |
| C78–C80 | pinentry/getpass.py, pinentry/gpg_agent.py | history invariant; inverse of escaping; delivery in pieces |

## 3. Trusted base

* Lean 4.33.0's kernel. `AXIOMS.md` (written by `tools/gen_axioms.py` from `#print axioms`) lists, for every theorem in
  `MANIFEST.json`, the axioms it depends on; they are among `propext`, `Classical.choice` and `Quot.sound`.
  No axiom is added; nothing rests on compiled evaluation.
* The transcription of the cited lines. The code was read, never run: where CPython's behaviour matters (slices, exceptions,
  text codecs, generator expressions in class bodies, name resolution) Python 3 semantics were taken from the language reference.
* The contracts assumed of parameters, which are hypotheses of the theorems and never global assumptions:
  block ciphers (inverse pair, keeps the block length), hash functions (fixed output length; no collision between the two given inputs
  where the theorem says so), public-key primitives (`SigPrims`: what is signed verifies), zlib (decompress inverts compress),
  `random`, the clock, the file system and the network/agent socket (as lists of octets delivered in pieces).
* Floating point: `int(math.log(i, 2))` is the parameter `fl`; facts about CPython's values (2**48-1, 2**2960) are hypotheses of the
  refuting theorems.

### What each model module covers

| module | code | left out / simplified |
|---|---|---|
| Utils | utils.py integer, MPI, length codecs, hex, signature value readers | float logarithm is a parameter |
| Framing | Packet.__bytes__, packet_from_packet_data, packet_from_packet_stream, parsers.py | packet contents are octets at this level |
| Crc24, Armor | crc24.py, armor.py | lone surrogates in `str` |
| S2k | s2k.py, the algorithm tables | hash functions are parameters |
| PublicKey | packets.py:687-841, fingerprints | elliptic curve algorithms are not in the code |
| Text, PyStr, Py | Python's codecs, string methods, exceptions | lone surrogates |
| SigPackets | signature_subpackets.py, SignaturePacket 299-522 | `hash trailer` methods of the packet (they raise) |
| Modes, SymCipher, Idea | cipher/base.py, get_symmetric_cipher, cipher/aidea.py | Camellia, Twofish, PyCrypto ciphers are external: parameters |
| SessionKey, EncData | PKESK, SKESK, OPS, session key classes, encrypted data of message.py | PyCrypto CFB assumed to behave like cipher/base.py |
| Hashing | hash_packet_for_signature, sign_hash, verify_hash, to_signable_data | DST-free time zone |
| Keyring, Lock | db/gpg.py keyring resource, database, lock file | GDBM resource (198-296) not modelled; forking after creating the lock |
| DataPackets, Canon | compressed, literal, trust, user id, attribute, MDC packets; compression wrappers; canonical text | zlib is a parameter |
| Commands | algorithm_helper.py, recipient_helper.py, encrypt.py | argument parsing (arguments.py) |
| Hkp, Shortcuts | keyserver/hkp.py index reader, shortcuts.py | HTTP |
| UserId, Regex | user_id.py, regex.py | Python's recursion limit |
| Keys, SecretKey | transferrable_keys.py order check, from/to packets; secret key packets, lock/unlock, context manager | encryption of private values (packets.py:954-992) enters as `resealed` |
| Message | message.py parse, open, to_packets, encrypt | to_packets without header_format; other packet classes through `accept`/`o` |
| Signature | signature.py attributes | subpackets by value; set iteration order is a parameter; dates in microseconds up to year 9999; setters of trust, revocation reason, regular expressions, notations, embedded signatures, revocation keys |
| KeySigs | key attributes from signatures, signature_verification.py rules, merge.py | the outcome of hashing is a parameter; state after an exception in merge |
| Parse | parse.py over pgpdump packets | pgpdump itself, MIME sniffing (`mime`), error stream |
| Pinentry | pinentry/*.py | negative repeat counts, partial socket sends |
| PubEncrypt | asymmetrically encrypted session keys end to end (message.py, session_key.py) | RSA/ElGamal primitives are parameters |
| KeyFile | read_key and serialize_key without armor, for public and secret keys; to_public_key of a whole key | all frames are read before the first content; whether the expiration time can be read is a parameter of to_public_key |
| SigLists | signature.py notations, regular_expressions, embedded_signatures, revocation_keys, trust, revocation reason and code, issuer parts | set iteration order is a parameter; equality and hash of items by their octets; key expiration setter left out |
| Files | shortcuts.py read_key, read_key_file, read_message, read_message_file, serialize_key, write_key_file with armor.is_armor | text files are in UTF-8 with universal newlines (the default of the platform is a parameter of Python, fixed here); file system errors are left out |
| Database | GPGDatabase (db/gpg.py:509-609) over keyring files | all keys of a resource are read before the first is compared; making key objects and `str.lower` are parameters; GDBM resources |
| EditId | UserID attributes (transferrable_keys.py:713-744), email.utils.formataddr | the encoded words for non-ASCII names are a parameter |
| PacketEq | `__eq__` of packets.py, s2k.py, signature_subpackets.py, user_attribute_subpackets.py; the choice of the packet class (packets.py:1584-1614, 1693-1695) | identity of subpackets that cannot be written is not represented; sets compared by equality, not through the hash |
| KeyIds | transferrable_keys.py:318-361 | the float logarithm is a parameter; SHA-1 is the parameter `Digest` |
| KeyEdit | transferrable_keys.py:116-161, 285-301; signature.py:560-568 | setters of `revocation_reason`, `revocation_code`, `revocation_keys`, `creation_time` through a key are not modelled (the last always raises, C52); a negative period is not kept in the object, only computed and encoded |
| SignMsg | message.py:41-59, 137-205, 702-728; transferrable_keys.py:388-412, 516-568 | `to_signable_data` of text and binary messages from `Canon`; aliasing is modelled for the list argument only, not for later edits through a signature's setters |
| Merge | merge.py:27-38, 139-149 | search in the database is a parameter (its result, or its exception) |
| OpenDb | db/gpg.py:160-207, 303-307, 468-506 | absolute paths, permissions and the lock (Model/Lock) are left out |
| BackSig | signature_verification.py:66-100, 166-173, 204-215 | the primitives are never reached |
| Output | commands/gpg/io_helper.py:156-280 | writes are complete (`write` returns the length); encoding and which files can be opened are parameters; the command's effect is left out |
| Options | commands/gpg/algorithm_helper.py, sign.py, message_.py:38-39, formatter.py:38-45 | the missing `return` of `sign_message` is supplied; reading the file and its encoding are left out |
| Certify | transferrable_keys.py (parts and `to_signable_data`), user_id.py, packets.py `get_content_for_signature_hash` | appending a signature object to a part; the weak reference of a public subkey to its primary key is taken to be alive |
| Unlock | transferrable_keys.py:193-218, 434-459, 1077-1105: the secret key objects of a key that was read | the expiration time of the objects is left out |
| KeyUse | transferrable_keys.py:363-412, 516-568, utils.py:95-154: the numbers of key objects as arguments of the cryptographic library | the library's randomness is fixed; a key without key id fails before signing |
| Crash | db/gpg.py:376-465: the file system calls of the keyring operations, objects sharing a file | `open(…, 'wb')` truncates at once; a write may be torn at any octet; operations of different objects do not overlap |
| Keyserver | keyserver/__init__.py:22-25, keyserver/hkp.py:109-184 | URLs without white space, control characters, non-ASCII characters and brackets; HTTP itself is not modelled: a request is a URL and a form, an answer is octets |
| Revoked | transferrable_keys.py:47-92, 117-123, 134-137, 146-147, 187-188, 618-619, 670-674, 789-793 | the marks a successful validation would leave are left out (C40: there is none) |
| Choose | commands/gpg/recipient_helper.py:70-94 | the search in the keyring is left out (it never finds anything, C65) |
| Reseal | encryption of private values given as numbers (packets.py:954-992, 1075-1099) | the cipher object (OpenPGP mode of the external library) is a parameter that raises or gives bytes |
| Import | storing and finding key objects in keyring files (db/gpg.py:333-396, packets.py:815-821, transferrable_keys.py:340-342) | packets of types that no key contains are accepted without parsing; `magic` is a parameter |
| Search | searches in the database with key objects (db/gpg.py:577-609, transferrable_keys.py:676-702) | `str.lower` is a parameter |
| Settle (Spec, Lemmas, Props) | what the readers accept, written and read again (no new model) | the image type (`imghdr`) is a parameter that contains '/' |
| PassOn (Spec, Lemmas, Props) | messages that were read, written and read again (no new model) | as Message |
| SigNumbers (Props) | `get_signature_values` (model in Utils) | Spec/SigMeaning `SigRaw`, Spec/KeyFile `LooseMpi` |
| SigNew (Props) | `BaseSignature.__init__` (model in Signature) | Spec/SigPackets `SigOk` |
| SignCommand | `run`, `sign_message`, `output` of the sign commands, `file_to_literal_message`, `get_timestamp` (commands/gpg/sign.py, clearsign.py, detach_sign.py, message_.py, io_helper.py) | Props/SignCommand `signedName`; files are a partial function from names |

Not modelled at all: arguments.py and main.py of the command line, GDBM, trustdb, HTTP transport, pgpdump, test_keys.py.

## 4. How the theorems were tested

`seeded/LOG.jsonl` records edits of the model made in a scratch copy the way a realistic bug would change the program, the claim
each breaks, the theorems that then fail, and the theorems tightened as a result.

## 5. What was found

A property marked `partial` in `MANIFEST.json` is one that the code does not satisfy as stated in general, or one proved on part of its
domain; `note` says which, and the refuting theorems (suffix `_refuted`, `_raises`, ...) stand beside the `_partial` ones.
