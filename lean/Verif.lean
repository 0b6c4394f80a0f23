import Verif.Props.Iteration
import Verif.Props.Dense
import Verif.Props.Sparse
import Verif.Props.SparseIter
import Verif.Props.SparseHeap
import Verif.Props.Mac
import Verif.Props.Interp
import Verif.Props.Cont
import Verif.Props.Cache
import Verif.Props.CacheLive
import Verif.Props.Ogawa
import Verif.Props.Og
import Verif.Props.BlockThreads
import Verif.Props.Hdf5Blocks
import Verif.Props.FieldIO
import Verif.Props.PatternMatch
import Verif.Props.FileSequence
import Verif.Props.Registry
import Verif.Props.Curve
import Verif.Props.Mapping
import Verif.Props.CoordSys
import Verif.Props.MacUtil
import Verif.Props.Sampler
import Verif.Props.FieldGroup
import Verif.Props.Metadata
import Verif.Props.MappingIO
import Verif.Props.MipInterp
import Verif.Props.Mip
import Verif.Model.MipThreads
import Verif.Proofs.MipThreads
import Verif.Proofs.MipSparse
import Verif.Props.MipThreads
import Verif.Proofs.MipEmpty
import Verif.Props.MipEmpty
import Verif.Proofs.ResamplePass
import Verif.Props.Resample
import Verif.Model.MipLoad
import Verif.Proofs.MipLoad
import Verif.Props.MipLoad
import Verif.Model.Files
import Verif.Spec.Files
import Verif.Proofs.Files
import Verif.Proofs.FilesRead
import Verif.Props.Files
import Verif.Model.MipIO
import Verif.Props.MipIO
import Verif.Model.LayerIO
import Verif.Proofs.OgawaSize
import Verif.Props.WholeFile
import Verif.Model.Identical
import Verif.Props.Identical
import Verif.Props.CopyFrom
import Verif.Props.FileMappings
import Verif.Model.MipMapping
import Verif.Model.MipOffset
import Verif.Model.MipField
import Verif.Props.MipMapping
import Verif.Props.MipField
import Verif.Model.MinMax
import Verif.Props.MinMax
import Verif.Model.Machine
import Verif.Proofs.Machine
import Verif.Props.Machine
import Verif.Model.DynField
import Verif.Spec.DynField
import Verif.Proofs.DynField
import Verif.Proofs.DynSteps
import Verif.Proofs.DynCopy
import Verif.Proofs.DynEdit
import Verif.Props.DynField
import Verif.Model.Hdf5
import Verif.Proofs.Hdf5
import Verif.Props.Hdf5
import Verif.Model.Hdf5Files
import Verif.Spec.Hdf5Files
import Verif.Proofs.Hdf5Files
import Verif.Proofs.Hdf5Meta
import Verif.Proofs.Hdf5Read
import Verif.Props.Hdf5Files
import Verif.Props.Hdf5FilesLimits
import Verif.Props.Hdf5FilesFields
import Verif.Props.FilesAll
import Verif.Model.FileObject
import Verif.Props.FileObject
import Verif.Props.FileObjectCases
import Verif.Model.Proxy
import Verif.Proofs.Proxy
import Verif.Props.Proxy
import Verif.Props.ProxyHdf5
import Verif.Props.ProxyCases
import Verif.Model.Hdf5Mapping
import Verif.Spec.Hdf5Mapping
import Verif.Props.Hdf5Mapping
import Verif.Props.Hdf5WholeFile
import Verif.Props.Hdf5MappingCases
import Verif.Model.Hdf5Mip
import Verif.Spec.Hdf5Mip
import Verif.Proofs.Hdf5Mip
import Verif.Props.Hdf5Mip
import Verif.Props.Hdf5MipCases
import Verif.Model.Rtti
import Verif.Spec.Rtti
import Verif.Proofs.Rtti
import Verif.Props.Rtti
import Verif.Model.Hdf5Groups
import Verif.Spec.Hdf5Groups
import Verif.Proofs.Hdf5Groups
import Verif.Proofs.Hdf5GroupsRead
import Verif.Proofs.Hdf5GroupsText
import Verif.Props.Hdf5Groups
import Verif.Props.Hdf5GroupsCases
import Verif.Model.Plugins
import Verif.Spec.Plugins
import Verif.Proofs.Plugins
import Verif.Props.Plugins
import Verif.Model.LazyFile
import Verif.Spec.LazyFile
import Verif.Proofs.LazyFile
import Verif.Props.LazyFile
import Verif.Model.ShortForms
import Verif.Spec.ShortForms
import Verif.Props.ShortForms
import Verif.Model.ReadAs
import Verif.Spec.ReadAs
import Verif.Props.ReadAs
import Verif.Props.ReadAsCases
import Verif.Model.OgawaGraph
import Verif.Spec.OgawaGraph
import Verif.Proofs.OgawaGraph
import Verif.Proofs.OgawaGraphRun
import Verif.Props.OgawaGraph
import Verif.Model.CacheStats
import Verif.Spec.CacheStats
import Verif.Proofs.CacheStats
import Verif.Props.CacheStats
import Verif.Model.GroupState
import Verif.Spec.GroupState
import Verif.Props.GroupState
import Verif.Model.MipCopy
import Verif.Spec.MipCopy
import Verif.Proofs.MipCopy
import Verif.Props.MipCopy
import Verif.Props.BlockBoxes
import Verif.Props.InterpSmooth
import Verif.Props.Messages
import Verif.Props.Merge
import Verif.Props.MakeMip
import Verif.Props.Procedural
import Verif.Props.Grains
import Verif.Props.IterPins
import Verif.Props.InterpVec
import Verif.Props.WriteField
import Verif.Props.FileRefs
import Verif.Model.MemSize
import Verif.Props.MemSize
import Verif.Model.Info
import Verif.Model.SampleApp
import Verif.Props.Info
import Verif.Props.SampleApp
import Verif.Model.AnyLess
import Verif.Props.AnyLess
