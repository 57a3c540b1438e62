import Verif.Lemmas.Armor
import Verif.Lemmas.Canon
import Verif.Lemmas.Certify
import Verif.Lemmas.Commands
import Verif.Lemmas.Crc24
import Verif.Lemmas.DataPackets
import Verif.Lemmas.EncData
import Verif.Lemmas.Framing
import Verif.Lemmas.Hashing
import Verif.Lemmas.Hex
import Verif.Lemmas.Hkp
import Verif.Lemmas.Idea
import Verif.Lemmas.KeyFile
import Verif.Lemmas.Keyring
import Verif.Lemmas.Keys
import Verif.Lemmas.KeysGrammar
import Verif.Lemmas.KeysRound
import Verif.Lemmas.Lengths
import Verif.Lemmas.Message
import Verif.Lemmas.Modes
import Verif.Lemmas.Mpi
import Verif.Lemmas.NoDiv
import Verif.Lemmas.Parse
import Verif.Lemmas.ParseKeys
import Verif.Lemmas.PassOn
import Verif.Lemmas.Pinentry
import Verif.Lemmas.PublicKey
import Verif.Lemmas.Regex
import Verif.Lemmas.SecretKey
import Verif.Lemmas.SessionKey
import Verif.Lemmas.Settle
import Verif.Lemmas.SettleKey
import Verif.Lemmas.SigLists
import Verif.Lemmas.SigMeaning
import Verif.Lemmas.SigPackets
import Verif.Lemmas.SigWire
import Verif.Lemmas.Signature
import Verif.Lemmas.Text
import Verif.Lemmas.UserId
import Verif.Lemmas.UserIdForms
import Verif.Lemmas.Utils
import Verif.Model.Armor
import Verif.Model.BackSig
import Verif.Model.Canon
import Verif.Model.Certify
import Verif.Model.Choose
import Verif.Model.Commands
import Verif.Model.Crash
import Verif.Model.Crc24
import Verif.Model.DataPackets
import Verif.Model.Database
import Verif.Model.EditId
import Verif.Model.EncData
import Verif.Model.Files
import Verif.Model.Framing
import Verif.Model.Hashing
import Verif.Model.Hkp
import Verif.Model.Idea
import Verif.Model.Import
import Verif.Model.KeyEdit
import Verif.Model.KeyFile
import Verif.Model.KeyIds
import Verif.Model.KeySigs
import Verif.Model.KeyUse
import Verif.Model.Keyring
import Verif.Model.Keys
import Verif.Model.Keyserver
import Verif.Model.Lock
import Verif.Model.Merge
import Verif.Model.Message
import Verif.Model.Modes
import Verif.Model.OpenDb
import Verif.Model.Options
import Verif.Model.Output
import Verif.Model.PacketEq
import Verif.Model.Parse
import Verif.Model.Pinentry
import Verif.Model.PubEncrypt
import Verif.Model.PublicKey
import Verif.Model.Py
import Verif.Model.PyStr
import Verif.Model.Regex
import Verif.Model.Reseal
import Verif.Model.Revoked
import Verif.Model.S2k
import Verif.Model.Search
import Verif.Model.SecretKey
import Verif.Model.SessionKey
import Verif.Model.Shortcuts
import Verif.Model.SigLists
import Verif.Model.SigPackets
import Verif.Model.SignCommand
import Verif.Model.SignMsg
import Verif.Model.Signature
import Verif.Model.SymCipher
import Verif.Model.Text
import Verif.Model.Unlock
import Verif.Model.UserId
import Verif.Model.Utils
import Verif.Props.Armor
import Verif.Props.ArmorText
import Verif.Props.BackSig
import Verif.Props.Canon
import Verif.Props.Certify
import Verif.Props.Choose
import Verif.Props.Commands
import Verif.Props.Crash
import Verif.Props.Crc24
import Verif.Props.Cut
import Verif.Props.DataPackets
import Verif.Props.Database
import Verif.Props.EditId
import Verif.Props.EncData
import Verif.Props.Files
import Verif.Props.Framing
import Verif.Props.Hashing
import Verif.Props.Hex
import Verif.Props.Hkp
import Verif.Props.Idea
import Verif.Props.Import
import Verif.Props.ImportHistory
import Verif.Props.Integers
import Verif.Props.KeyEdit
import Verif.Props.KeyFile
import Verif.Props.KeyIds
import Verif.Props.KeySigs
import Verif.Props.KeyUse
import Verif.Props.Keyring
import Verif.Props.Keys
import Verif.Props.Keyserver
import Verif.Props.Lengths
import Verif.Props.Lock
import Verif.Props.Malformed
import Verif.Props.Merge
import Verif.Props.Message
import Verif.Props.Modes
import Verif.Props.OpenDb
import Verif.Props.Options
import Verif.Props.Output
import Verif.Props.PacketEq
import Verif.Props.PacketWire
import Verif.Props.Parse
import Verif.Props.ParseKeys
import Verif.Props.ParseMore
import Verif.Props.PassOn
import Verif.Props.Pinentry
import Verif.Props.PubEncrypt
import Verif.Props.PublicKey
import Verif.Props.Regex
import Verif.Props.Reseal
import Verif.Props.Revoked
import Verif.Props.RingMap
import Verif.Props.S2k
import Verif.Props.Search
import Verif.Props.SecretFile
import Verif.Props.SecretKey
import Verif.Props.SessionKey
import Verif.Props.Settle
import Verif.Props.Shortcuts
import Verif.Props.SigLists
import Verif.Props.SigMeaning
import Verif.Props.SigNew
import Verif.Props.SigNumbers
import Verif.Props.SigPackets
import Verif.Props.SigWire
import Verif.Props.SignCommand
import Verif.Props.SignMsg
import Verif.Props.SignValues
import Verif.Props.Signature
import Verif.Props.Streams
import Verif.Props.Unlock
import Verif.Props.UserId
import Verif.Spec.Armor
import Verif.Spec.ArmorText
import Verif.Spec.Bytes
import Verif.Spec.Canon
import Verif.Spec.Certify
import Verif.Spec.Choose
import Verif.Spec.Commands
import Verif.Spec.Crash
import Verif.Spec.Crc24
import Verif.Spec.Cut
import Verif.Spec.DataPackets
import Verif.Spec.Database
import Verif.Spec.EditId
import Verif.Spec.EncData
import Verif.Spec.Framing
import Verif.Spec.Hashing
import Verif.Spec.Hex
import Verif.Spec.Hkp
import Verif.Spec.Idea
import Verif.Spec.Import
import Verif.Spec.KeyEdit
import Verif.Spec.KeyFile
import Verif.Spec.KeyIds
import Verif.Spec.KeySigs
import Verif.Spec.KeyUse
import Verif.Spec.Keyring
import Verif.Spec.Keys
import Verif.Spec.Keyserver
import Verif.Spec.Lengths
import Verif.Spec.Malformed
import Verif.Spec.Merge
import Verif.Spec.Message
import Verif.Spec.Modes
import Verif.Spec.Options
import Verif.Spec.Output
import Verif.Spec.PacketEq
import Verif.Spec.PacketWire
import Verif.Spec.Parse
import Verif.Spec.PassOn
import Verif.Spec.Pinentry
import Verif.Spec.PublicKey
import Verif.Spec.Regex
import Verif.Spec.Revoked
import Verif.Spec.S2k
import Verif.Spec.Search
import Verif.Spec.SecretFile
import Verif.Spec.SecretKey
import Verif.Spec.SessionKey
import Verif.Spec.Settle
import Verif.Spec.SigLists
import Verif.Spec.SigMeaning
import Verif.Spec.SigPackets
import Verif.Spec.SigWire
import Verif.Spec.SignMsg
import Verif.Spec.SignValues
import Verif.Spec.Signature
import Verif.Spec.Streams
import Verif.Spec.Unlock
import Verif.Spec.UserId
