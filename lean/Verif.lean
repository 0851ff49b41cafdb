import Verif.Bits
import Verif.CS
import Verif.Cancel
import Verif.Cases.Arith
import Verif.Cases.Core
import Verif.Cases.Gadgets
import Verif.Cases.More
import Verif.Cases.Protocols
import Verif.Cases.Proving
import Verif.Cases.Rest
import Verif.Cases.Storage
import Verif.Cases.Threads
import Verif.Chunks
import Verif.Circ
import Verif.Compute
import Verif.Constrain
import Verif.Cost
import Verif.Density
import Verif.Domain
import Verif.DomainOps
import Verif.Examples.Bench
import Verif.Examples.CoreTests
import Verif.Examples.DummyEngine
import Verif.Examples.GadgetTests
import Verif.Examples.HashProof
import Verif.Examples.Mimc
import Verif.Examples.MimcTest
import Verif.Examples.Preimage
import Verif.Examples.UnitTests
import Verif.Field
import Verif.FieldInstances
import Verif.Gadgets.Blake2s
import Verif.Gadgets.Boolean
import Verif.Gadgets.Lookup
import Verif.Gadgets.MachineMultiEq
import Verif.Gadgets.MultiEq
import Verif.Gadgets.Multipack
import Verif.Gadgets.Num
import Verif.Gadgets.Sha256
import Verif.Gadgets.UInt32
import Verif.Groth16.Assembly
import Verif.Groth16.Assignment
import Verif.Groth16.Batch
import Verif.Groth16.Concurrent
import Verif.Groth16.Equality
import Verif.Groth16.Generator
import Verif.Groth16.GeneratorOps
import Verif.Groth16.Keys
import Verif.Groth16.Machine
import Verif.Groth16.MachineAssembly
import Verif.Groth16.MachineAssignment
import Verif.Groth16.MachineVerifier
import Verif.Groth16.Ops
import Verif.Groth16.Prover
import Verif.Groth16.ProverOps
import Verif.Groth16.Quotient
import Verif.Groth16.Random
import Verif.Groth16.Serialize
import Verif.Groth16.Source
import Verif.Groth16.Stream
import Verif.Groth16.Verifier
import Verif.Handles
import Verif.LC
import Verif.Machine
import Verif.Multicore
import Verif.Multiexp
import Verif.MultiexpOps
import Verif.Names
import Verif.PrettyPrint
import Verif.Proofs.Agm
import Verif.Proofs.Assembly
import Verif.Proofs.Assignment
import Verif.Proofs.Batch
import Verif.Proofs.Blake2s
import Verif.Proofs.Boolean
import Verif.Proofs.Bytes
import Verif.Proofs.CancelBlake
import Verif.Proofs.CancelBoolean
import Verif.Proofs.CancelMultiEq
import Verif.Proofs.CancelSha
import Verif.Proofs.Chunks
import Verif.Proofs.ConBoolean
import Verif.Proofs.ConHash
import Verif.Proofs.ConNum
import Verif.Proofs.ConPreimage
import Verif.Proofs.Concurrent
import Verif.Proofs.Cost
import Verif.Proofs.CostConst
import Verif.Proofs.CostEval
import Verif.Proofs.CostHash
import Verif.Proofs.CostNumbers
import Verif.Proofs.Crs
import Verif.Proofs.Domain
import Verif.Proofs.DummyEngine
import Verif.Proofs.DummySqrt
import Verif.Proofs.Extract
import Verif.Proofs.Fft
import Verif.Proofs.GadgetTests
import Verif.Proofs.GadgetTestsBits
import Verif.Proofs.GadgetTestsCS
import Verif.Proofs.GadgetTestsHash
import Verif.Proofs.GadgetTestsLookup
import Verif.Proofs.GadgetTestsPack
import Verif.Proofs.GadgetTestsStrict
import Verif.Proofs.GadgetTestsTables
import Verif.Proofs.GadgetTestsWord
import Verif.Proofs.Generator
import Verif.Proofs.Groth16
import Verif.Proofs.Handles
import Verif.Proofs.HashEval
import Verif.Proofs.HashProof
import Verif.Proofs.Knowledge
import Verif.Proofs.Lookup
import Verif.Proofs.Machine
import Verif.Proofs.MachineAssembly
import Verif.Proofs.MachineAssignment
import Verif.Proofs.MachineGroth16
import Verif.Proofs.MachineMultiEq
import Verif.Proofs.Mimc
import Verif.Proofs.MultiEq
import Verif.Proofs.Multicore
import Verif.Proofs.Multiexp
import Verif.Proofs.Multipack
import Verif.Proofs.NamesExamples
import Verif.Proofs.NamesGadgets
import Verif.Proofs.NamesHash
import Verif.Proofs.NamesTest
import Verif.Proofs.NonConst
import Verif.Proofs.Num
import Verif.Proofs.Ops
import Verif.Proofs.Preimage
import Verif.Proofs.PrettyPrint
import Verif.Proofs.ProcLc
import Verif.Proofs.Proof
import Verif.Proofs.Prover
import Verif.Proofs.Queries
import Verif.Proofs.Quotient
import Verif.Proofs.Realize
import Verif.Proofs.SameCircuit
import Verif.Proofs.ScopeBoolean
import Verif.Proofs.ScopeHash
import Verif.Proofs.ScopeNum
import Verif.Proofs.ScopeTrace
import Verif.Proofs.Seeing
import Verif.Proofs.Serialize
import Verif.Proofs.Sha256
import Verif.Proofs.ShapeHash
import Verif.Proofs.ShapeNum
import Verif.Proofs.Sizes
import Verif.Proofs.Stream
import Verif.Proofs.Synth
import Verif.Proofs.TestCS
import Verif.Proofs.Threads
import Verif.Proofs.ThreadsRun
import Verif.Proofs.Trace
import Verif.Proofs.UInt32
import Verif.Proofs.Unique
import Verif.Proofs.UniqueCircuit
import Verif.Proofs.UniqueHash
import Verif.Proofs.UniqueNum
import Verif.Proofs.Verifier
import Verif.Props.Adaptive
import Verif.Props.Agm
import Verif.Props.Batch
import Verif.Props.BatchKnowledge
import Verif.Props.BatchWeights
import Verif.Props.BitVectors
import Verif.Props.Blinding
import Verif.Props.Boolean
import Verif.Props.Cancel
import Verif.Props.Chunking
import Verif.Props.Compute
import Verif.Props.Constrained
import Verif.Props.Core
import Verif.Props.CoreTests
import Verif.Props.Cost
import Verif.Props.Deployment
import Verif.Props.Domain
import Verif.Props.DomainOps
import Verif.Props.DummyEngine
import Verif.Props.Equality
import Verif.Props.Fingerprint
import Verif.Props.GadgetSizes
import Verif.Props.GadgetTests
import Verif.Props.GeneratorOps
import Verif.Props.Groth16
import Verif.Props.Handles
import Verif.Props.Hash
import Verif.Props.HashProof
import Verif.Props.Keygen
import Verif.Props.Knowledge
import Verif.Props.Machine
import Verif.Props.MachineAssembly
import Verif.Props.MachineAssignment
import Verif.Props.MachineGadgets
import Verif.Props.MachineGroth16
import Verif.Props.MachineVerifier
import Verif.Props.Malleable
import Verif.Props.Mimc
import Verif.Props.MimcTest
import Verif.Props.Multicore
import Verif.Props.Multiexp
import Verif.Props.MultiexpOps
import Verif.Props.Names
import Verif.Props.Num
import Verif.Props.Ops
import Verif.Props.Preimage
import Verif.Props.PrettyPrint
import Verif.Props.ProverOps
import Verif.Props.Random
import Verif.Props.Scope
import Verif.Props.Seeing
import Verif.Props.Serialize
import Verif.Props.Setup
import Verif.Props.Source
import Verif.Props.Streams
import Verif.Props.Tampered
import Verif.Props.TestCS
import Verif.Props.TestHash
import Verif.Props.Tested
import Verif.Props.Threads
import Verif.Props.Unique
import Verif.Props.UnitTests
import Verif.Props.WeakKeys
import Verif.Props.Witness
import Verif.Props.WordTests
import Verif.Props.WrongKey
import Verif.Scope
import Verif.Shape
import Verif.Spec.Agm
import Verif.Spec.Batch
import Verif.Spec.Blake2s
import Verif.Spec.Constrained
import Verif.Spec.Depends
import Verif.Spec.Encoding
import Verif.Spec.Groth16
import Verif.Spec.Matrices
import Verif.Spec.Mimc
import Verif.Spec.Names
import Verif.Spec.Qap
import Verif.Spec.Scope
import Verif.Spec.Seeing
import Verif.Spec.Sha256
import Verif.Spec.Sha256d
import Verif.Spec.Simulator
import Verif.Spec.Size
import Verif.Spec.Strategy
import Verif.Spec.Stream
import Verif.Spec.Unique
import Verif.TestCS
import Verif.TestHash
import Verif.Threads
