import Verif.Basic
import Verif.Props.Ints
import Verif.Props.Seqs
import Verif.Props.AbstractInts
import Verif.Props.NatMods
import Verif.Props.Polys
import Verif.Props.Sha256s
import Verif.Props.Hmacs
import Verif.Props.ChaChas
import Verif.Props.Aess
import Verif.Props.Blake2s
import Verif.Props.Fips202s
import Verif.Props.X25519s
import Verif.Props.X25519Orders
import Verif.Props.P256s
import Verif.Props.P256Orders
import Verif.Props.CrateExamples
import Verif.Props.Words
import Verif.Props.Totals
import Verif.Props.Universals
import Verif.Props.HashStructure
import Verif.Props.Limits
import Verif.Props.WordHex
import Verif.Lemmas.DivSteps
import Verif.Lemmas.PolyInv
import Verif.Props.PolyInvs
import Verif.Lemmas.EuclidChecked
import Verif.Spec.Calls
import Verif.Lemmas.Calls
import Verif.Lemmas.GcmKeys
import Verif.Props.HashCollisions
import Verif.Props.KeyCommit
import Verif.Props.NonceReuse
import Verif.Props.SpongeStructure
import Verif.Spec.Numeral
import Verif.Model.Format
import Verif.Props.Formats
import Verif.Model.Random
import Verif.Props.Randoms
import Verif.Props.KeySchedules
import Verif.Props.WeakKeys
import Verif.Props.InvalidCurves
import Verif.Props.Remaining
import Verif.Props.Leaks
import Verif.Props.LibraryLeaks
import Verif.Props.Numerics
import Verif.Props.Costs
import Verif.Props.Diffusion
import Verif.Props.CompressStructure
import Verif.Props.OneTimeMac
import Verif.Props.Symmetries
import Verif.Props.SeqLeaks
import Verif.Validation.Library
import Verif.Validation.Hashes
import Verif.Validation.Sponge
import Verif.Validation.Aead
import Verif.Validation.Curves
import Verif.Props.Releases
import Verif.Props.ReleaseInts
import Verif.Props.Ideals
import Verif.Props.IdealBlakes
import Verif.Props.IdealMacs
import Verif.Props.IdealKdfs
import Verif.Props.ReleaseArrays
import Verif.Props.IdealHashes
import Verif.Props.IdealSponges
import Verif.Props.Switches
import Verif.Props.IdealBlocks
import Verif.Props.IdealAeads
import Verif.Props.IdealGcm
import Verif.Props.Usizes
import Verif.Props.Trails
import Verif.Props.Masks
import Verif.Props.Integral
import Verif.Props.AesParams
import Verif.Props.Degree
import Verif.Props.SpongeSeconds
import Verif.Props.Indifferents
import Verif.Props.Generics
import Verif.Props.Extracts
import Verif.Props.Users
import Verif.Props.UsersGcm
import Verif.Props.KeyedSponges
import Verif.Props.CounterModes
import Verif.Props.SealedAeads
import Verif.Props.Multicollisions
import Verif.Props.Sessions
import Verif.Props.Nonces
import Verif.Props.Channels
import Verif.Props.Ratchets
import Verif.Props.Commitments
import Verif.Props.Composed
import Verif.Props.P256Channels
import Verif.Props.PublicKeys
import Verif.Props.KeyCounts
import Verif.Props.KeyClasses
import Verif.Props.KeyGuess
import Verif.Props.Impossible
import Verif.Props.Mixture
import Verif.Props.Multiples
