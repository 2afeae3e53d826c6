import Verif.Model.Aes
import Verif.Model.AesBlock
import Verif.Model.Basic
import Verif.Model.Buffer
import Verif.Model.Cipher
import Verif.Model.Crypto
import Verif.Model.Curve25519
import Verif.Model.Edwards
import Verif.Model.Fingerprint
import Verif.Model.Getters
import Verif.Model.Group
import Verif.Model.GroupBytes
import Verif.Model.GroupHeap
import Verif.Model.Heap
import Verif.Model.Identity
import Verif.Model.Inspect
import Verif.Model.KeyHeap
import Verif.Model.Keys
import Verif.Model.Message
import Verif.Model.Races
import Verif.Model.Ratchet
import Verif.Model.SessionHeap
import Verif.Model.Sha2
import Verif.Model.Slice
import Verif.Model.Standard
import Verif.Model.State
import Verif.Model.StateBytes
import Verif.Model.StateUse
import Verif.Model.Storage
import Verif.Model.Threads
import Verif.Model.Toy
import Verif.Model.Uuid
import Verif.Model.Wire
import Verif.Model.World
import Verif.Model.XEdDSA
import Verif.Proofs.AesBlock
import Verif.Proofs.Agreeing
import Verif.Proofs.Alike
import Verif.Proofs.Alone
import Verif.Proofs.AloneCalls
import Verif.Proofs.Apart
import Verif.Proofs.Chains
import Verif.Proofs.Cipher
import Verif.Proofs.Conformity
import Verif.Proofs.Content
import Verif.Proofs.Crash
import Verif.Proofs.CurveOrder
import Verif.Proofs.Damaged
import Verif.Proofs.Deniability
import Verif.Proofs.Duo
import Verif.Proofs.Edwards
import Verif.Proofs.EdwardsLaw
import Verif.Proofs.EdwardsPoly
import Verif.Proofs.Encoding
import Verif.Proofs.Envelope
import Verif.Proofs.Eval
import Verif.Proofs.Failed
import Verif.Proofs.Failures
import Verif.Proofs.FieldValues
import Verif.Proofs.Fields
import Verif.Proofs.Fingerprint
import Verif.Proofs.FingerprintDoc
import Verif.Proofs.Flood
import Verif.Proofs.Fresh
import Verif.Proofs.Getters
import Verif.Proofs.Group
import Verif.Proofs.GroupApart
import Verif.Proofs.GroupBytes
import Verif.Proofs.GroupBytesRun
import Verif.Proofs.GroupDelivery
import Verif.Proofs.GroupHeapCalls
import Verif.Proofs.GroupHeapHistory
import Verif.Proofs.GroupHeapWorld
import Verif.Proofs.GroupHidden
import Verif.Proofs.GroupHistory
import Verif.Proofs.GroupLays
import Verif.Proofs.GroupPlaces
import Verif.Proofs.GroupPlacesCalls
import Verif.Proofs.GroupReading
import Verif.Proofs.GroupSlices
import Verif.Proofs.GroupTranscript
import Verif.Proofs.GroupTrouble
import Verif.Proofs.GroupWire
import Verif.Proofs.Guessing
import Verif.Proofs.HeapCalls
import Verif.Proofs.HeapHistory
import Verif.Proofs.HeapRecord
import Verif.Proofs.HeapState
import Verif.Proofs.HeapWorld
import Verif.Proofs.History
import Verif.Proofs.Ids
import Verif.Proofs.Inspect
import Verif.Proofs.KeyHeap
import Verif.Proofs.Ladder
import Verif.Proofs.Lineage
import Verif.Proofs.Members
import Verif.Proofs.Messages
import Verif.Proofs.Montgomery
import Verif.Proofs.Network
import Verif.Proofs.NoPanic
import Verif.Proofs.Openness
import Verif.Proofs.Ops
import Verif.Proofs.Oracle
import Verif.Proofs.PreKeys
import Verif.Proofs.Primes
import Verif.Proofs.Protocol
import Verif.Proofs.Races
import Verif.Proofs.Reading
import Verif.Proofs.Records
import Verif.Proofs.Recovery
import Verif.Proofs.Reuse
import Verif.Proofs.Runs
import Verif.Proofs.SessionHeapSim
import Verif.Proofs.SessionHidden
import Verif.Proofs.SessionKept
import Verif.Proofs.SessionKeptCalls
import Verif.Proofs.SessionSlices
import Verif.Proofs.Sessions1
import Verif.Proofs.Sessions2
import Verif.Proofs.Sessions3
import Verif.Proofs.Sessions4
import Verif.Proofs.Sessions5
import Verif.Proofs.Sessions6
import Verif.Proofs.Sessions7
import Verif.Proofs.SetUpOpen
import Verif.Proofs.Setup
import Verif.Proofs.Sha2
import Verif.Proofs.Sizes
import Verif.Proofs.Slice
import Verif.Proofs.SmallOrder
import Verif.Proofs.Standards
import Verif.Proofs.StandardsAes
import Verif.Proofs.State
import Verif.Proofs.StateBytes
import Verif.Proofs.StateBytesRun
import Verif.Proofs.StateBytesSim
import Verif.Proofs.StateBytesStep
import Verif.Proofs.StateUse
import Verif.Proofs.StateUseAppend
import Verif.Proofs.StateUseLate
import Verif.Proofs.StateUseRun
import Verif.Proofs.StateUseSim
import Verif.Proofs.StateUseStep
import Verif.Proofs.StateUseTight
import Verif.Proofs.Steps
import Verif.Proofs.Stores
import Verif.Proofs.Texts
import Verif.Proofs.ThreadCalls
import Verif.Proofs.ThreadGroups
import Verif.Proofs.Threads
import Verif.Proofs.Transcript
import Verif.Proofs.Trouble1
import Verif.Proofs.Trouble2
import Verif.Proofs.Trouble3
import Verif.Proofs.Twist
import Verif.Proofs.TwistPrimes
import Verif.Proofs.Unrandom
import Verif.Proofs.View
import Verif.Proofs.WF
import Verif.Proofs.Work
import Verif.Proofs.XEdDSA
import Verif.Props.Aes
import Verif.Props.Agreeing
import Verif.Props.Agreement
import Verif.Props.Alone
import Verif.Props.Apart
import Verif.Props.Buffers
import Verif.Props.Content
import Verif.Props.Crash
import Verif.Props.Damaged
import Verif.Props.Delivery
import Verif.Props.Deniability
import Verif.Props.Encoding
import Verif.Props.Envelope
import Verif.Props.Failed
import Verif.Props.Failures
import Verif.Props.Fingerprint
import Verif.Props.Fresh
import Verif.Props.Getters
import Verif.Props.Group
import Verif.Props.GroupApart
import Verif.Props.GroupBytes
import Verif.Props.GroupDelivery
import Verif.Props.GroupHeap
import Verif.Props.GroupPlaces
import Verif.Props.GroupTranscript
import Verif.Props.GroupTrouble
import Verif.Props.Guessing
import Verif.Props.Heap
import Verif.Props.Identity
import Verif.Props.Ids
import Verif.Props.Inspect
import Verif.Props.KeyHeap
import Verif.Props.Members
import Verif.Props.Messages
import Verif.Props.Network
import Verif.Props.Openness
import Verif.Props.Oracle
import Verif.Props.Pinning
import Verif.Props.PreKeys
import Verif.Props.Protocol
import Verif.Props.Purposes
import Verif.Props.Races
import Verif.Props.Reading
import Verif.Props.Records
import Verif.Props.Recovery
import Verif.Props.Replay
import Verif.Props.Restore
import Verif.Props.Reuse
import Verif.Props.Secrecy
import Verif.Props.SessionHeap
import Verif.Props.Sessions
import Verif.Props.SetUp
import Verif.Props.Signatures
import Verif.Props.SmallOrder
import Verif.Props.Standard
import Verif.Props.Standards
import Verif.Props.StateBytes
import Verif.Props.StateUse
import Verif.Props.StateUseAppend
import Verif.Props.Stores
import Verif.Props.Texts
import Verif.Props.Threads
import Verif.Props.Transcript
import Verif.Props.Trouble
import Verif.Props.Unrandom
import Verif.Props.Versions
import Verif.Props.Window
import Verif.Props.Work
import Verif.Spec.Agreeing
import Verif.Spec.Alone
import Verif.Spec.Apart
import Verif.Spec.Conformity
import Verif.Spec.Crash
import Verif.Spec.Damaged
import Verif.Spec.Deniability
import Verif.Spec.Duo
import Verif.Spec.Example
import Verif.Spec.Failures
import Verif.Spec.Fields
import Verif.Spec.Fresh
import Verif.Spec.Getters
import Verif.Spec.Group
import Verif.Spec.GroupBytes
import Verif.Spec.GroupExample
import Verif.Spec.GroupHeap
import Verif.Spec.GroupReading
import Verif.Spec.GroupTranscript
import Verif.Spec.GroupTrouble
import Verif.Spec.Guessing
import Verif.Spec.Heap
import Verif.Spec.Ids
import Verif.Spec.KeyHeap
import Verif.Spec.Members
import Verif.Spec.Network
import Verif.Spec.Openness
import Verif.Spec.Oracle
import Verif.Spec.PreKeys
import Verif.Spec.Protocol
import Verif.Spec.Purposes
import Verif.Spec.Races
import Verif.Spec.Reading
import Verif.Spec.Recovery
import Verif.Spec.Reuse
import Verif.Spec.Secrecy
import Verif.Spec.Session
import Verif.Spec.SessionHeap
import Verif.Spec.Sessions
import Verif.Spec.SmallOrder
import Verif.Spec.Standards
import Verif.Spec.StateBytes
import Verif.Spec.StateUse
import Verif.Spec.Texts
import Verif.Spec.Threads
import Verif.Spec.Transcript
import Verif.Spec.Trouble
import Verif.Spec.Unrandom
import Verif.Spec.Work
import Verif.Vectors.Fingerprint
import Verif.Vectors.Primitives
import Verif.Vectors.Protocol
