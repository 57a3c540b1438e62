STATUS = {
 "C01": ("proved", ""),
 "C02": ("proved", "write/read is proved for every logarithm that leaves room for the top octet, in particular an exact one"),
 "C03": ("partial", "full round trip for an exact logarithm; exact criterion for any logarithm; with CPython's float log the property is refuted at 2**2960 (the oracle value is recorded as a hypothesis)"),
 "C04": ("partial", "proved for an exact logarithm; refuted for the float logarithm at 2**48-1"),
 "C05": ("proved", ""), "C06": ("proved", ""), "C07": ("proved", ""), "C08": ("proved", ""),
 "C09": ("partial", "false for new-format packets with empty content (refuted) and old-format types 16..31 (refuted); proved for every expressible packet"),
 "C10": ("partial", "proved for every list of expressible packets; refuted with an empty new-format packet"),
 "C11": ("proved", ""),
 "C12": ("partial", "proved for the in-memory parser and every non-zero type; refuted for the stream parser"),
 "C13": ("proved", ""),
 "C14": ("partial", "false: refuted for every data packet above 2^32-1 octets; proved in all other cases"),
 "C15": ("proved", ""), "C16": ("proved", ""),
 "C17": ("proved", "unknown headers are written but dropped on reading (shown); a dict of extra headers raises, or is written wrongly when the keys have two characters (shown)"),
 "C18": ("proved", ""),
}
STATUS.update({
 "C19": ("proved", "hypothesis: math.log(i,2) floors correctly on 1024..65011712"),
 "C20": ("partial", "proved for every known hash and every cipher but Twofish (simple, salted, iterated); refuted for Twofish, whose table entry is 16 octets where RFC 4880 requires 32 (C20_twofish_refuted); primitive: hash functions with the digest lengths of the RFC; deviation for passphrases longer than the count shown as a theorem"),
 "C21": ("proved", ""),
})
STATUS.update({
 "C22": ("proved", "for every logarithm that leaves room for the integers; in particular an exact one"),
 "C23": ("partial", "v4 proved under an explicit no-collision hypothesis; v2/v3 fingerprints raise (RSA, ElGamal) or all coincide (DSA), shown as theorems"),
})
STATUS.update({
 "C24": ("partial", "proved for every list of subpackets of the kinds whose reader and writer agree, nested signatures included; refuted for regular expressions, revocation keys, targets, additional recipients, raw notations and unknown types (their content is dropped)"),
 "C25": ("proved", "for every version 4 signature with areas below 2^16 octets and subpackets that survive (C24); versions 2/3 cannot be written and lose half of the key id (shown)"),
 "C44": ("proved", ""),
 "C60": ("partial", "proved: a hashed area that consists of whole subpackets is read alone, whatever follows it. Refuted: for every subpacket an overrunning area is accepted"),
})
STATUS.update({
 "C31": ("proved", "for an arbitrary block cipher (primitive); the CTR counter is a stream of blocks of the right size"),
})
STATUS.update({
 "C26": ("partial", "proved for public-key and symmetric-key session key packets with an eight-octet key id / an encrypted key of the cipher's length; refuted for wild-card key ids, longer encrypted keys and every one-pass signature packet (half of the key id lost)"),
 "C29": ("partial", "proved for integrity protected data of every length (primitive: an arbitrary block cipher and SHA-1); refuted for the empty message (nothing is encrypted) and for data without integrity protection (both directions always raise)"),
 "C30": ("proved", "primitives: an arbitrary block cipher, an arbitrary hash function"),
 "C45": ("partial", "block format and PKCS padding proved for all inputs; through RSA a block with a leading zero octet is lost, shown as a theorem"),
 "C53": ("partial", "false: refuted for every key; see the theorems"),
 "C61": ("partial", "false: refuted for every key; see the theorems"),
 "C62": ("partial", "proved when the specifier's cipher is the session's cipher; refuted otherwise"),
})
STATUS.update({
 "C32": ("proved", "the code's IDEA is proved equal to the published cipher, for every key and block"),
})
STATUS.update({
 "C27": ("partial", "proved for version 4 and later and for version 3 documents and keys; refuted for version 3 user ids versus attributes and for secret subkeys (primary key hashed twice); 0x40/0x50 deviate from the RFC (shown)"),
 "C28": ("partial", "proved for DSA, ElGamal and RSA signature strings without leading zero octet, for every item and after transport; refuted for RSA strings with a leading zero octet, raw octets, version 3 and secret subkeys; the numbers a signature consists of and those accepted are stated per algorithm, with a refutation for DSA group orders that are not a whole number of octets long"),
})
STATUS.update({
 "C33": ("partial", "look-up, addition, read-only and every history of operations proved against a list specification; refuted for deletion and update of any key but the last (all later keys are lost), duplicate additions (never refused) and fingerprints (only eight characters compared)"),
 "C34": ("partial", "refuted for every configuration: secret keys go where public keys go"),
 "C55": ("partial", "mutual exclusion proved over all interleavings without foreign exits; refuted for nested acquisition and for the exit of another process"),
 "C56": ("partial", "exact detection rule proved; refuted for both prefixes and empty files"),
 "C63": ("partial", "proved after any history: the file found is the old one or a beginning of the new one, and operations that raise leave it alone. Refuted: every change has a crash point at which the file is empty, ones after which only some keys are left, and ones after which a key is found with a packet cut short"),
})
STATUS.update({
 "C47": ("partial", "deflate proved for any pieces; zlib proved for one piece and refuted for more (all but the first are lost); packets round trip for algorithms 0-2; bzip2 refuted (never opens). Primitive: a working zlib"),
 "C51": ("proved", "images with the documented header; subpackets of other types lose their content (shown as a theorem)"),
 "C54": ("proved", "for ASCII names as stated; non-ASCII names corrupt the data and parsed packets cannot be serialised again (shown as theorems)"),
 "C64": ("partial", "what the library writes is proved to read back; refuted for user ids that are not UTF-8 and longer trust packets"),
})
STATUS.update({
 "C46": ("partial", "the form of the standard is produced exactly on texts with canonical line endings already, where it is injective; refuted for every text with a bare LF or CR (the neighbouring character is lost)"),
 "C48": ("partial", "the choice from a preference list is proved (first shared cipher, integrity rule, failure iff none shared); refuted for the shipped preferences: only the first is ever tried, a forced cipher may be disabled, disabling persists"),
 "C57": ("partial", "proved for all listings whose dates are present; refuted for user ids without a creation date"),
 "C59": ("partial", "round trip through text and octets proved; refuted: every key is labelled public, and submission sends secret packets"),
 "C65": ("partial", "proved without groups, with the key choice; refuted with groups (named recipients are discarded) and for the shipped helpers (every recipient fails)"),
})
STATUS.update({
 "C58": ("partial", "termination proved on every string; name+address, bare address, quoted names, escaped comments, comment and address of commented ids proved; refuted for the name of commented ids (keeps ' ()'), for ids without an address (first word returned as address) and blank ids (IndexError). Python's recursion limit not modelled"),
})
STATUS.update({
 "C43": ("partial", "termination on every string and exact acceptance (over characters and escaped characters) proved, with the error position; refuted for patterns ending in a lone backslash (accepted) and ranges ending in a backslash (refused)"),
})

STATUS.update({
 "C35": ("proved", "Language equivalence with an explicit grammar (Spec/Keys.lean); also: a subkey revocation is never accepted, unlike RFC 4880."),
 "C36": ("partial", "Roundtrip proved for all modern keys (no trust packet, v4 signatures, no validity period, image attributes). Refuted otherwise: a trust packet truncates the key silently, v2/v3 keys lose the validity period and can then not be written, v3 signatures make to_packets raise TypeError."),
})

STATUS.update({
 "C37": ("proved", "Exact grammar of the recognised packet sequences; refuted against RFC 4880: signature-first, unprotected and signed encrypted messages never open; trailing packets and unmatched one-pass packets are accepted."),
 "C38": ("partial", "Exact condition under which a message opens, and the full claim for public-key session keys refused with ValueError; refuted for passphrase session keys (only the first is tried) and mixed recipients."),
 "C66": ("partial", "Round trip for single-packet messages with ASCII names, integrity protected encrypted messages and signed single-packet messages; refuted: nested signatures flatten, version 3 signatures and issuer-less signatures cannot be written, literal format is lost, the nested flag is inverted."),
 "C67": ("partial", "End to end, for the cipher of the specifier, session keys not longer than that cipher's key and simple, salted or iterated specifiers; ciphers and SHA-1 are parameters."),
})

STATUS.update({
 "C39": ("partial", "Refuted: merging two copies of a key raises if the other copy has a signature on the key itself; otherwise a successful merge sets the lists of user ids, attributes and subkeys to None and replaces every part's signatures by a single None. Only a key that is not another copy is left alone."),
 "C40": ("partial", "The rules of check_signature_values are proved in both modes (bad times rejected; strict: accepted implies in time, unexpired, unrevoked; lenient: flags exact). Refuted: the signature's own expiration is ignored, an explicit zero key expiration raises, check_signature always raises, validate_signature accepts only type 0x30 and without verifying it."),
 "C42": ("partial", "Refuted: the last listed self-signature is chosen whatever its date; it is the most recent one for keys whose self-signatures are listed in order of date. The values reported are those its octets state (proved); three attributes report another bit of the key flags (refuted)."),
 "C52": ("partial", "Set-then-get, frame and history theorems for the flag, time, preference and text attributes of signatures in which each subpacket type occurs at most once per area. Refuted parts: revocable is the exportable attribute, setting the first of a group of flags sets the others, the creation time cannot be set, expiration cannot be removed, issuers are only ever added. Setters of trust, revocation reason, regular expressions, notations, embedded signatures and revocation keys: see C84."),
 "C68": ("partial", "Refuted: a key with one self-signature never expires whatever the period; with several, the period is counted from another signature's creation time. Keys whose signatures give no period never expire (proved)."),
 "C69": ("partial", "No revocation attached: reported as not revoked; with one certification and a later revocation by the same issuer: reported as revoked. Renewed certifications make the query raise."),
 "C70": ("proved", ""),
})

STATUS.update({
 "C41": ("partial", "Histories of lock/unlock on a key whose private portion has enough integers: private values present exactly while unlocked; unlock/lock of whole keys and re-locking by the context manager, also on exceptions. Refuted: a subkey that fails to unlock leaves the primary and earlier subkeys unlocked; too few integers leave a private value in a locked key; a nested context locks the outer one."),
 "C50": ("partial", "Round trip for non-empty portions and encodable S2K; private values recovered exactly and hash checked for v4 keys with usage 254 (cipher and digest are parameters). Refuted: usage 0, 101 and legacy octets raise, checksum (255) and v2/v3 portions are never decrypted, empty portions and GnuPG S2K cannot be written. A packet made from its private numbers and a passphrase is never written (C50_numbers_never_written)."),
 "C71": ("partial", "For whole files: the public key made from a secret key has the octets of the secret key file with everything behind the public values cut off the key packets, and nothing else changed. The octets of the public packet do not depend on private values, and the public part is the one read from the octets of the secret key; refuted for the object: an unlocked RSA key's public key object carries the prime p."),
})

STATUS.update({
 "C49": ("partial", "Unknown critical types always raise (exact exception when the rest is readable); unknown non-critical types outside the hashed area are ignored. Refuted: a hashed unknown type raises TypeError, critical notations with undefined flags and invalid critical regular expressions are passed over, embedded signatures always raise."),
 "C72": ("partial", "Holds when the hashed subpackets come first and the self-signature mark does not change (always for 16-digit ids); refuted when an unhashed subpacket comes first."),
 "C73": ("partial", "Exact for versions 2 and 3; refuted for version 4 (only the first four octets are compared; never recognised with 16-digit ids)."),
 "C74": ("proved", "Also proved: against RFC 4880 a key with a certification revocation (0x30) is refused."),
 "C75": ("partial", "Streams of well formed keys, for any key reader that succeeds on them. Refuted: a bad key ends the reading, nothing is yielded after a reader error, the parser's own parse_key never succeeds, an empty stream is a RuntimeError."),
 "C76": ("partial", "A single image with any length encoding, and termination for all inputs; refuted when another subpacket follows."),
 "C77": ("partial", "For the fields with one subpacket type listed in the specifications Says and (self-signatures) SaysSelf, and for notations and regular expressions; refuted for local signatures (raises) and targets (never set)."),
})

STATUS.update({
 "C78": ("proved", "Also shown: what is printed, and that the error text is printed before the first attempt."),
 "C79": ("proved", "Also shown: the text X means no text."),
 "C80": ("partial", "One data line in which octets outside ASCII are escaped, however it is cut up on the way. Refuted: raw UTF-8 is garbled, data split over two lines is cut, a comment or status line first is taken for the answer, a closed connection hangs."),
})

STATUS.update({
 "C82": ("partial", "proved for every packet of the grammar in Spec/SigWire (shortest lengths, exact bit counts, contents the library remembers; any nesting), with an exact characterisation of the contents that survive (all types but additional recipient requests); refuted for further key flags and features octets, URLs that are not UTF-8, and lengths not in shortest form"),
 "C83": ("partial", "proved for every file of the grammar in Spec/KeyFile (shortest definite lengths, exact bit counts, UTF-8 user ids, standard image headers, signatures whose content is kept) and exact characterisations of the packet headers, key contents and user ids that survive; refuted for loosely written integers (which also change the fingerprint), octets behind the key material, user ids not in UTF-8 and photos exported in the default header format, which cannot be read again"),
 "C81": ("partial", "End to end for RSA recipients, and for a single ElGamal recipient alone or named before any RSA recipients (ciphers, RSA with its padding and SHA-1 are parameters) when no RSA ciphertext begins with a zero octet. Refuted: such a ciphertext makes the message unreadable, RSA encrypt-only keys raise, an ElGamal holder after an RSA recipient gets AttributeError, hidden recipients alone raise TypeError."),
})

STATUS.update({
 "C84": ("partial", "proved: every item of a non-empty list assigned is present afterwards, nothing else is added, other subpackets are kept, and assigning the empty list clears the attribute. Refuted: items not in a non-empty assigned list stay; a critical notation blocks reading and assigning; a critical embedded signature cannot be removed; revocation keys can never be assigned; trust depth and amount cannot be read or written; a revocation reason cannot be read; a first revocation code cannot be given. The key expiration setter: see C94"),
})

STATUS.update({
 "C85": ("partial", "proved for all attributes the library exposes except: revocable (answers what is stated about exportable), revocation keys (such signatures are not read at all), trust and reason text (C84), non-human-readable notations (C24) and signature targets; version 3 signatures are C25"),
 "C86": ("partial", "stated in the hashed area: kept, whatever the unhashed area holds (proved). Refuted otherwise: an attribute, or an expiry, not stated by the signer takes any value someone else adds to the unhashed area"),
})

STATUS.update({
 "C87": ("partial", "proved in both directions for specifiers, session keys, literal data, compressed and integrity protected data, user ids, images, public and secret keys (encrypted, usage 254 and 255); refuted for the key id of one-pass signatures and version 3 signatures (only its first half is read; C25 shows the latter are never written). Version 4 signatures: C82, C85"),
})

STATUS.update({
 "C88": ("partial", "proved for data in packets (never taken for armor) and for all armored forms with ASCII headers, with and without the flag, LF or CRLF, and for whole received key files; refuted for octets with armored=True that do not begin with the dashes, binary files with old format headers opened with armored=True, armor behind a blank line (read only with the flag) and non-ASCII headers given as octets"),
})
STATUS.update({
 "C89": ("partial", "histories, listings and the exact result of every search are proved; refuted: ids are compared by their last eight characters only, so another key may be returned and a key with a later key of the same short id is found by no question; an empty fingerprint or key id raises AttributeError; an addition is silently lost when all stores are secret, and secret keys go to the first public store"),
 "C10": ("partial", "proved for every list of expressible packets and for every sequence of received packets in any framing; refuted with an empty new-format packet"),
})
STATUS.update({
 "C90": ("partial", "proved for every ASCII name (words, or any text with reserved characters that gets quoted), every ASCII address and every comment not occurring in the name; refuted: conventional ids with a comment before the address get parentheses in the name, an id that is only a name loses it, non-ASCII names are replaced by encoded words, a comment occurring in the name is cut out of it, runs of spaces are collapsed"),
})

STATUS.update({
 "C91": ("partial", "proved for every file of the grammar in Spec/KeyFile with protected secret keys (usage 254 or 255, any specifier of types 0, 1 and 3, any cipher with its block length); refuted: unprotected keys and keys with the older protection cannot be read at all, and GnuPG's stubs are read but cannot be written"),
 "C92": ("partial", "proved for every class but signatures, one-pass signatures and unknown types that contents without ignored octets compare equal exactly if header form, type and content agree; version 4 signatures exactly if their fields and the sets of their subpackets agree; comparison is symmetric and transitive on all packets. Refuted: order and repetition of subpackets, the version and the short key id of one-pass signatures, the content of unknown packets, malformed user ids and further octets of trust packets do not count, and version 2 and 3 signatures raise AttributeError even against themselves"),
 "C93": ("partial", "key ids and key grips are proved for all numbers; the size is proved for every number that is no power of two, given that the logarithm is rounded up correctly. Refuted: the size of a power of two is one short; other algorithms raise"),
 "C94": ("partial", "proved for every history of assignments on version 4 keys with a readable self-signature, for attributes the library does not confuse and signatures that have key flags; only the self-signature consulted changes. Refuted: without a self-signature assigning raises, on version 2 and 3 keys it is lost; storage, authentication and communication flags change together, and so do modification detection and multiple owners; the signature is not renewed; the expiration time of a version 4 key cannot be assigned, and one assigned to a user id's signature is counted from another signature, raises without one, and wraps round to decades if it lies before it"),
 "C95": ("partial", "signing succeeds (C95_signs) and several signers' signatures arrive and verify, also after passphrase encryption or encryption to any number of RSA keys, for signers whose primitives are correct; text signatures are proved for data with canonical line ends only: with a bare LF the last character of a line is not covered (C95_canonical_refuted, C95_text_forgery_refuted). Refuted: with one_pass=False the signature is lost on receipt (C95_no_one_pass_refuted); without preferences MD5 is used (C95_default_hash_refuted). Only literal messages can be signed. Names and times of literal data are not covered (C95_metadata), as in RFC 4880."),
 "C96": ("partial", "proved for algorithms 0, 1, 2, also through passphrase and RSA encryption, given that zlib inverts itself and the compressed octets fit a packet. Refuted for bzip2, which never opens (C96_other_algorithms_refuted); unknown algorithms raise."),
 "C97": ("partial", "C97_own_lists holds for every sequence of calls without extra subpackets. Refuted with a non-empty list: the list and the hashed subpackets of all earlier signatures made with it change (C97_caller_list_refuted), so that the octets an earlier signature is checked over are no longer those it was made over (C97_first_signature_refuted)."),
 "C98": ("partial", "sameness of octets is characterised exactly for all received public key packets. Refuted: only the first key found under the key id is compared, so a copy behind another key is not merged; a database with look-up by hash makes merging raise; an unlocked RSA key is not recognised as a copy of itself locked. What merging of copies does is C39"),
 "C99": ("partial", "proved for keyring files whose octets 4 and 8-11 are not the keybox marks; what is opened is characterised for all names. Refuted: no new file can be made, an emptied keyring is taken for a GDBM database, GDBM databases never open, and the prefix gnupg-keyring: leaves two of its characters in the name"),
})

STATUS.update({
 "C100": ("partial", "proved that the binding signature of a subkey not meant to sign, without a back signature, passes this check. Refuted: a binding signature that states the signing flag raises whatever it carries, as does every embedded back signature, valid or not; the function combining all checks never succeeds (C40)"),
 "C101": ("partial", "output within a limit above zero is written whole, to the file chosen (proved for all sizes). Refuted: longer output raises only after the limit has been passed (by up to 1024 octets), as AttributeError; without a limit at most 1024 octets are written and UnboundLocalError is raised"),
 "C102": ("partial", "status output is proved to go to the one place chosen; log and attribute output too if the options for the status are of the same kind; nothing is ever written twice. Refuted: otherwise the log goes to standard output or is lost"),
 "C103": ("partial", "the command is proved to be the template with its marks replaced for templates in which %% is not followed by a mark and values without a percent sign. Refuted: %%k is replaced, marks in values are replaced again, and the photo reaches no viewer: templates with %i or %I raise, others are run without input"),
})

STATUS.update({
 "C104": ("partial", "digests are proved exactly for all names and options, zip and zlib with their levels for all options. Refuted: unknown names are not refused (the key's preference, or MD5, is used; nothing is compressed), bzip2 means no compression, and level 0 still compresses"),
 "C105": ("partial", "the escaping is proved exactly right if and only if no line but the first begins with From. Refuted otherwise, and it cannot be undone"),
 "C106": ("partial", "items and values are proved for every history. Refuted: membership holds for the last eight characters of an id only, never for a full id or fingerprint, although these are found by look-up; iteration raises TypeError"),
 "C107": ("proved", ""),
})

STATUS.update({
 "C108": ("partial", "proved for all packet sequences that form a key and hold no trust packets; a trust packet makes the reader drop what follows (C36)"),
 "C109": ("partial", "proved for every public or protected secret key file of the grammar in Spec/KeyFile whose packets have one header format, every part of it and every subset of octets signed; primary keys, user ids and attributes of a secret key are signed as those of its public half. Refuted: the octets signed for a subkey of a secret key are never those of the same subkey of its public half (C109_subkey_binding_refuted): the primary key is hashed twice"),
})

STATUS.update({
 "C110": ("partial", "proved for every file of the grammar in Spec/KeyFile with version 4 key packets of usage 254, any specifier of types 0, 1 and 3, any cipher but Twofish whose implementation works, algorithms 1, 3, 16, 17 and 20, and passphrases no longer than the iteration count covers. Refuted: packets with a checksum (usage 255) are never unlocked; keys of algorithm 2 are unlocked but unusable; the end of a passphrase longer than the count is not looked at; Twofish keys get 16 octets instead of 32 (C20)"),
})

STATUS.update({
 "C111": ("partial", "proved for every file of C110 (version 4, usage 254, algorithms 1, 3, 16, 17, 20) with any library whose numbers are key pairs; RSA signatures whose octets begin with a zero octet are excluded (refuted for them in C28), and so are the files that C110 and C91 exclude"),
})

STATUS.update({
 "C112": ("partial", "proved for any number of RSA keys (algorithm 1) from files of C110, named or hidden, and for one ElGamal key, alone or named before RSA keys; excluded are ciphertexts that begin with a zero octet (C81_leading_zero_refuted: they cannot be opened) and keys that do not refuse the ciphertexts of the recipients before them; what is encrypted to an ElGamal key can be read by anybody (C61)"),
})

STATUS.update({
 "C113": ("partial", "proved for all texts with a checksum line, header keys without a colon and no line of the data that begins with an equals sign. Refuted: a text without the checksum, which the RFC makes optional, is an IndexError; white space after the header line, which the RFC allows, is a ValueError; extra headers given as a dict are not written (C17)"),
})

STATUS.update({
 "C114": ("partial", "proved for additions through any number of objects in any order, and look-ups of keys known to the object; refuted: an object does not find keys added by another, and after a deletion through one object, another finds a different key under the fingerprint of the deleted one and deletes that. Operations are taken not to overlap in time (the lock, C55)"),
})

STATUS.update({
 "C115": ("partial", "proved: armored text cut anywhere before the end of its last line raises (reading it as armor, as a key and as a message), and so do packets cut within a header, whatever its form, in memory and from a stream, packets in chunks cut before the last chunk, and key files cut within a public key or subkey packet. Refuted: packets cut within any content (that of the last chunk, for packets in chunks) are read, exactly as if the last packet had been written shorter, by the readers of keys and of messages alike; a signed message cut behind the signed packet is read as a signed message with the same contents and no signature. Encrypted contents: see C30"),
})

STATUS.update({
 "C116": ("partial", "proved: for hkp, hkps and http URLs requests go to the host, transport and directory of the URL; forms have one reading and carry exactly the terms, identifier or key; a public key submitted is received unchanged. Refuted: https URLs are turned into http, hkp does not use port 11371, the key received is not compared with the identifier, anything before the armor in the answer raises, and a secret key is sent in full. HTTP itself (urllib.request) is not modelled"),
})

STATUS.update({
 "C117": ("partial", "proved: the exact list of exceptions for armor, packets in memory, packet streams, signature packets, keys and messages (every exception in a list is shown to occur, no other can), so that reading always ends. Refuted: that these are the library's exceptions or ValueError. Python's limits on recursion and memory are not modelled; signatures are nested without limit"),
})
STATUS.update({
 "C118": ("partial", "proved: the exact condition under which a part counts as revoked (type, named issuer among the key's own ids, not expired), what the own ids are, also in terms of the octets of a key file, the current self-signatures where nothing is revoked, which signature the revocation code comes from. Refuted: nothing is verified (any signature packet naming the key revokes it), appointed revokers do not count, a key with a subkey revocation is not read so no subkey is ever revoked, one old signature makes the question raise, the reason is never given, a code is given for expired revocations, only the last listed signature's revokers are given, a renewed and then revoked certification makes current_self_signatures raise"),
})
STATUS.update({
 "C119": ("partial", "proved: the exact choice (first subkey that is not revoked and whose last listed self-signature has the flag, else the primary key with a direct signature that has it, else nothing; nothing for revoked keys), and that it is the choice of C65. Refuted: flags in certifications of user ids are not consulted, expired subkeys and subkeys that can only sign are encrypted to"),
})

STATUS.update({
 "C120": ("partial", "proved for any sequence of stored keys, public or secret and in any formats, in keyrings of keys in any formats, with the real packet parsers and key objects in place of the parameters of C33: keys are written as the same packets with headers in the format of the file's first packet. Histories of storing, replacing and removing follow exactly the stated list operations, in which (refuted) removing or replacing a key also removes all keys behind it in the file. Refuted: a key with an image stored in a file that begins with an old-format header is written with a broken header, the call raises after the file was changed, and the file can never be opened again. Missing: packets that the format of the file cannot express other than images (empty user ids in new-format files, contents of 2^24 octets and more in old-format files)."),
})

STATUS.update({
 "C121": ("partial", "proved with the real packet parsers and key objects, from the octets of the files to the keys returned, if no two keys of one file have the same last eight digits; ids are compared by these digits only, so a search for a fingerprint also returns a different key with the same ending (C89_other_key_refuted), a key id given besides a fingerprint is ignored (C121_key_id_ignored_refuted), and a key is hidden by a later one with the same ending (C89_hidden_search_refuted). `str.lower` is a parameter."),
})

STATUS.update({
 "C122": ("partial", "proved for keys and signatures from any octets that are read, if what is written has no regular expressions or additional recipients in its signatures, integers within the range in which the library's float logarithm is exact, and packets that the chosen header format can express. Refuted: a signature with a regular expression is written so that it cannot be read again; a subpacket naming an additional recipient loses half of its fingerprint each time it is saved."),
})

STATUS.update({
 "C123": ("partial", "proved for messages from any octets that are read, if file names are ASCII, specifiers are complete and not GnuPG's own, signed messages have signatures, which can be stored (C122), and packets can be framed; that what is written at all is assumed (C66_unwritable_refuted lists what is not). Refuted: with a file name that is not ASCII the message changes; a message whose signatures are missing is read as signed and passed on as unsigned."),
})

STATUS.update({
 "C124": ("partial", "proved for all versions and areas; that the signature read has the same integers is proved for versions 2 and 3 always and for version 4 if both areas consist of whole subpackets. Refuted otherwise: a hashed area that ends within a subpacket is read further than it goes (C60), and the two sets of integers differ."),
})

STATUS.update({
 "C125": ("partial", "proved for version 4 without time and issuer, for parts that fit (C24). Refuted: with an issuer the constructor raises AttributeError; a creation time given is lost; version 2 and 3 signatures answer neither and have no packet."),
})
STATUS["C53"] = ("partial", "false: refuted for every key, message and list of recipients: hiding recipients makes the very message that naming them makes, and the key id of each can be read in it")
STATUS["C61"] = ("partial", "false: refuted for every ElGamal key: what is encrypted to it, session key or whole message, opens with any exponent")
STATUS["C126"] = ("partial", "proved: only the output file is ever touched, and nothing if the file is missing, there is no key or the key cannot sign. Refuted: no command ever succeeds or writes a signature, because the signed message is not returned; clear-signing, and signing without compression, leave the output file empty, whatever was in it; standard input cannot be signed")
