import Verif.Props.Particle
import Verif.Props.ParticleArith
import Verif.Props.FixMom
import Verif.Props.Compute
import Verif.Props.Invariance
import Verif.Props.Gram
import Verif.Props.Pol
import Verif.Examples.Particle
import Verif.Examples.FixMom
import Verif.Examples.Compute
import Verif.Props.Image
import Verif.Props.Symmetry
import Verif.Props.SymmetryTen
import Verif.Props.Relabel
import Verif.Props.RelabelShort
import Verif.Props.Indexing
import Verif.Props.Arcs
import Verif.Examples.Points
import Verif.Props.Text
import Verif.Props.Cluster
import Verif.Props.Check
import Verif.Props.CheckDefault
import Verif.Props.Masses
import Verif.Examples.Cluster
import Verif.Props.Front
import Verif.Props.Dispatch
import Verif.Props.DispatchNames
import Verif.Props.DispatchTraces
import Verif.Props.Parentheses
import Verif.Examples.Front
import Verif.Props.Generators
import Verif.Props.Neighbours
import Verif.Props.GramList
import Verif.Props.InvariantsCache
import Verif.Props.Brackets
import Verif.Props.BracketsMore
import Verif.Props.SetBracket
import Verif.Props.SetString
import Verif.Props.SetMiddle
import Verif.Props.SetMandelstam
import Verif.Props.SetPoly
import Verif.Props.SetTr5
import Verif.Props.Solve
import Verif.Props.SetPairExchanged
import Verif.Examples.Set
import Verif.Props.Components
import Verif.Props.Slices
import Verif.Props.Twistor
import Verif.Props.Save
import Verif.Props.PolyImageInv
import Verif.Examples.PolyImage
import Verif.Props.Eval
import Verif.Model.PairSet
import Verif.Lemmas.PairSet
import Verif.Model.Pair33
import Verif.Lemmas.Pair33
import Verif.Props.PairTwo
import Verif.Props.PairMandel
import Verif.Props.PairMandelFlip
import Verif.Props.Pair33
import Verif.Props.Pair33Ends
import Verif.Examples.Pair
import Verif.Props.Set5B
import Verif.Examples.Set5B
import Verif.Props.SetOneFree
import Verif.Examples.SetOneFree
import Verif.Lemmas.Patterns
import Verif.Props.Patterns
import Verif.Props.SlotTexts
import Verif.Model.SetText
import Verif.Props.SetReads
import Verif.Props.SetText
import Verif.Examples.SetText
import Verif.Model.Parse
import Verif.Model.Call
import Verif.Spec.Leaves
import Verif.Lemmas.Regex
import Verif.Lemmas.ParseLeaves
import Verif.Lemmas.ParsePasses
import Verif.Lemmas.ParseStars
import Verif.Lemmas.ParseInsert
import Verif.Lemmas.ParseOpen
import Verif.Lemmas.ParseEnd
import Verif.Lemmas.ParseFrac
import Verif.Lemmas.ParseLex
import Verif.Props.ParseNames
import Verif.Props.Parse
import Verif.Examples.Parse
import Verif.Spec.Taken
import Verif.Props.EvalExact
import Verif.Props.ParseExact
import Verif.Props.EvalRaises
import Verif.Examples.EvalExact
import Verif.Model.PairDelta
import Verif.Lemmas.PairDelta
import Verif.Props.ArcsOrder
import Verif.Props.PairDelta
import Verif.Props.PairDelta3
import Verif.Examples.PairDelta
import Verif.Model.Pair3S
import Verif.Props.Pair3S
import Verif.Examples.Pair3S
import Verif.Model.Pair2N
import Verif.Lemmas.Pair2N
import Verif.Props.Pair2N
import Verif.Props.Pair2NUnfix
import Verif.Examples.Pair2N
import Verif.Model.PairSD0
import Verif.Model.PairSDA
import Verif.Model.PairSDB
import Verif.Model.PairSDC
import Verif.Model.PairSD
import Verif.Lemmas.PairSD0
import Verif.Lemmas.PairSDA
import Verif.Lemmas.PairSDB
import Verif.Lemmas.PairSDC
import Verif.Lemmas.PairSD
import Verif.Props.PairSD
import Verif.Examples.PairSD
import Verif.Model.PairND
import Verif.Lemmas.PairND
import Verif.Props.PairND
import Verif.Examples.PairND
import Verif.Model.PairAll
import Verif.Props.PairAll
import Verif.Examples.PairAll
import Verif.Model.Ideal
import Verif.Lemmas.Ideal
import Verif.Props.Ideal
import Verif.Examples.Ideal
import Verif.Model.SpinorIdeal
import Verif.Props.SpinorIdeal
import Verif.Examples.SpinorIdeal
import Verif.Model.IdealImage
import Verif.Props.IdealImage
import Verif.Examples.IdealImage
import Verif.Model.SliceRun
import Verif.Lemmas.SliceRun
import Verif.Props.SliceRun
import Verif.Examples.SliceRun
import Verif.Model.EvalArr
import Verif.Model.NodeText
import Verif.Spec.MatExpr
import Verif.Props.EvalArr
import Verif.Spec.PyGrammar
import Verif.Props.NodeText
import Verif.Examples.EvalArr
import Verif.Props.PolyText
import Verif.Model.SpinorImage
import Verif.Props.SpinorImage
import Verif.Props.SpinText
import Verif.Props.OpenText
import Verif.Props.MassText
import Verif.Props.OpenPiece
import Verif.Props.OpenBroken
import Verif.Props.OpenBrokenLeft
import Verif.Props.SpinNine
import Verif.Examples.SpinorImage
import Verif.Spec.Mathematica
import Verif.Model.Mathematica
import Verif.Props.Mathematica
import Verif.Examples.Mathematica
import Verif.Model.Construct
import Verif.Props.Construct
import Verif.Examples.Construct
import Verif.Props.StringLists
import Verif.Examples.StringLists
import Verif.Props.StringPairs
import Verif.Props.StringPairsList
import Verif.Props.StringPairsSeven
import Verif.Props.StringPairsMore
import Verif.Examples.StringPairs
import Verif.Model.Heap
import Verif.Spec.Heap
import Verif.Lemmas.Heap
import Verif.Props.Heap
import Verif.Props.HeapCopy
import Verif.Props.HeapShare
import Verif.Examples.Heap
import Verif.Model.InvariantsLists
import Verif.Props.StringTriples
import Verif.Props.StringTripleList
import Verif.Props.StringTripleTexts
import Verif.Props.InvariantsContents
import Verif.Props.InvariantsUsable
import Verif.Examples.InvariantsContents
import Verif.Model.HardBlock
import Verif.Props.HardBlock
import Verif.Examples.HardBlock
import Verif.Model.PointHash
import Verif.Props.PointHash
import Verif.Props.HashExact
import Verif.Model.MassOps
import Verif.Props.MassOps
import Verif.Examples.MassOps
import Verif.Model.FieldChange
import Verif.Spec.FieldChange
import Verif.Lemmas.Transfer
import Verif.Props.FieldChange
import Verif.Examples.FieldChange
import Verif.Props.SubsCommute
import Verif.Examples.SubsCommute
import Verif.Spec.Upto
import Verif.Lemmas.TransferEval
import Verif.Props.ExprChange
import Verif.Examples.ExprChange
import Verif.Props.LorentzText
import Verif.Spec.Weight
import Verif.Props.Weights
import Verif.Examples.Weights
import Verif.Props.LeafWeights
import Verif.Lemmas.SetKeeps
import Verif.Props.History
import Verif.Examples.History
import Verif.Model.SetLeft
import Verif.Lemmas.SetLeft
import Verif.Model.PairLeft
import Verif.Lemmas.PairLeft
import Verif.Lemmas.SetMom
import Verif.Props.Left
import Verif.Props.LeftPair
import Verif.Lemmas.SetStays
import Verif.Props.LeftStays
import Verif.Examples.Left
import Verif.Spec.Indices
import Verif.Lemmas.NodeSame
import Verif.Props.Covariance
import Verif.Examples.Covariance
import Verif.Spec.Names
import Verif.Lemmas.Relabel
import Verif.Lemmas.RelabelRead
import Verif.Lemmas.RenameText
import Verif.Props.RelabelText
import Verif.Props.RelabelWritten
import Verif.Examples.RelabelText
import Verif.Spec.Flip
import Verif.Lemmas.SubstText
import Verif.Props.FlipText
import Verif.Examples.FlipText
import Verif.Spec.NodeWeight
import Verif.Props.OpenWeights
import Verif.Examples.OpenWeights
import Verif.Spec.Mirror
import Verif.Props.Mirror
import Verif.Examples.Mirror
import Verif.Model.PointSlice
import Verif.Spec.PointSlice
import Verif.Props.PointSlice
import Verif.Examples.PointSlice
import Verif.Model.ThreeCorners
import Verif.Props.ThreeCorners
import Verif.Examples.ThreeCorners
import Verif.Props.ImageCoinciding
import Verif.Examples.ImageCoinciding
import Verif.Props.BuildFrom
import Verif.Examples.BuildFrom
import Verif.Props.CopyAll
import Verif.Props.ClusterTen
import Verif.Props.SaveAll
import Verif.Model.NewParticle
import Verif.Props.NewParticle
