import Verif.Model.Varint
import Verif.Spec.Varint
import Verif.Proofs.Varint
import Verif.Proofs.ShiftMix
import Verif.Proofs.VarintPack
import Verif.Model.Tag
import Verif.Proofs.VarintParse
import Verif.Props.Varint
import Verif.Model.Outcome
import Verif.Model.Schema
import Verif.Model.Parse
import Verif.Model.Flat
import Verif.Model.Serialize
import Verif.Spec.Wire
import Verif.Proofs.WireItems
import Verif.Proofs.Serialize
import Verif.Proofs.Write
import Verif.Props.Demo
import Verif.Props.Write
import Verif.Spec.Records
import Verif.Proofs.ReadPrim
import Verif.Proofs.Reads
import Verif.Proofs.ReadOps
import Verif.Proofs.ReadSkip
import Verif.Proofs.ReadValue
import Verif.Proofs.ReadPacked
import Verif.Proofs.ReadSlot
import Verif.Proofs.ReadLevel
import Verif.Proofs.ReadSafe
import Verif.Spec.Fields
import Verif.Spec.Values
import Verif.Proofs.ReadMono
import Verif.Proofs.ReadFacts
import Verif.Proofs.ReadProj
import Verif.Proofs.ReadNest
import Verif.Proofs.ReadUnk
import Verif.Proofs.MapList
import Verif.Proofs.ReadInv
import Verif.Proofs.ReadMembers
import Verif.Props.Read
import Verif.Props.Members
import Verif.Model.Merge
import Verif.Spec.Object
import Verif.Proofs.Merge
import Verif.Proofs.EncodeRec
import Verif.Proofs.RoundTrip
import Verif.Proofs.MergeLaws
import Verif.Proofs.Tidy
import Verif.Proofs.TidyMerge
import Verif.Props.Merge
import Verif.Model.Recursion
import Verif.Props.Recursion
import Verif.Model.OptionalBool
import Verif.Props.OptionalBool
import Verif.Model.Dispatch
import Verif.Proofs.Dispatch
import Verif.Props.Dispatch
import Verif.Model.Base64
import Verif.Spec.Base64
import Verif.Proofs.Base64
import Verif.Props.Base64
import Verif.Model.Decimal
import Verif.Model.Duration
import Verif.Spec.Duration
import Verif.Proofs.Decimal
import Verif.Proofs.Duration
import Verif.Props.Duration
import Verif.Model.Calendar
import Verif.Spec.Calendar
import Verif.Model.Timestamp
import Verif.Spec.Timestamp
import Verif.Proofs.Calendar
import Verif.Proofs.Timestamp
import Verif.Props.Timestamp
import Verif.Model.FieldMask
import Verif.Spec.Json
import Verif.Proofs.FieldMask
import Verif.Props.FieldMask
import Verif.Model.Arena
import Verif.Spec.Sequence
import Verif.Proofs.Arena
import Verif.Props.Arena
import Verif.Model.FlatMap
import Verif.Spec.FiniteMap
import Verif.Proofs.FlatMap
import Verif.Proofs.FlatSort
import Verif.Props.FlatMap
import Verif.Model.Sink
import Verif.Spec.Chunks
import Verif.Proofs.Sink
import Verif.Proofs.BufSink
import Verif.Props.Sink
import Verif.Model.Text
import Verif.Model.Lexical
import Verif.Spec.Cpp
import Verif.Proofs.Lexical
import Verif.Proofs.LexNames
import Verif.Proofs.LexNumbers
import Verif.Proofs.LexFiles
import Verif.Props.Lexical
import Verif.Model.Extension
import Verif.Proofs.WrittenRecs
import Verif.Proofs.Extension
import Verif.Props.Extension
import Verif.Model.Regions
import Verif.Proofs.RegLayout
import Verif.Proofs.RegOps
import Verif.Proofs.RegSim
import Verif.Proofs.RegData
import Verif.Proofs.RegRead
import Verif.Proofs.RegField
import Verif.Proofs.RegBuild
import Verif.Proofs.RegFinal
import Verif.Props.Regions
import Verif.Model.Popcount
import Verif.Proofs.Popcount
import Verif.Proofs.RegAppend
import Verif.Model.Padded
import Verif.Props.Padded
import Verif.Model.FileGraph
import Verif.Proofs.FileGraph
import Verif.Props.FileGraph
import Verif.Model.Slots
import Verif.Proofs.Slots
import Verif.Props.Slots
import Verif.Model.Dynamic
import Verif.Proofs.Dynamic
import Verif.Props.Dynamic
import Verif.Proofs.DynamicHistory
import Verif.Props.DynamicHistory
import Verif.Proofs.DynamicClone
import Verif.Props.DynamicClone
import Verif.Model.DynamicWrite
import Verif.Spec.StaticType
import Verif.Spec.DynamicPool
import Verif.Proofs.StaticType
import Verif.Proofs.DynamicItems
import Verif.Proofs.DynamicWrite
import Verif.Proofs.DynamicSer
import Verif.Proofs.DynamicHolds
import Verif.Props.DynamicWrite
import Verif.Model.DynamicRead
import Verif.Spec.DynamicRead
import Verif.Proofs.DynamicReads
import Verif.Proofs.DynamicSim
import Verif.Proofs.DynamicElems
import Verif.Proofs.DynamicFieldRead
import Verif.Proofs.DynamicSingular
import Verif.Proofs.DynamicMsgField
import Verif.Proofs.DynamicRepeated
import Verif.Proofs.DynamicLevel
import Verif.Props.DynamicRead
import Verif.Spec.DynamicSame
import Verif.Proofs.DynamicRound
import Verif.Proofs.DynamicFine
import Verif.Proofs.DynamicRelaxed
import Verif.Props.DynamicRound
import Verif.Model.GrpcClient
import Verif.Model.GrpcServer
import Verif.Spec.Reactor
import Verif.Proofs.Reactor
import Verif.Props.Grpc
import Verif.Model.Pool
import Verif.Spec.PoolSchema
import Verif.Proofs.PoolBase
import Verif.Proofs.PoolBuild
import Verif.Proofs.PoolTree
import Verif.Proofs.PoolLink
import Verif.Proofs.PoolFields
import Verif.Proofs.PoolFill
import Verif.Proofs.PoolInit
import Verif.Spec.PoolView
import Verif.Proofs.PoolView
import Verif.Props.Pool
import Verif.Model.Json
import Verif.Spec.JsonText
import Verif.Spec.JsonForm
import Verif.Proofs.JsonLex
import Verif.Proofs.JsonWrite
import Verif.Proofs.JsonReadField
import Verif.Proofs.JsonRead
import Verif.Proofs.JsonLevel
import Verif.Proofs.JsonStyle
import Verif.Proofs.JsonSafe
import Verif.Proofs.JsonRef
import Verif.Proofs.JsonReject
import Verif.Proofs.JsonWriteSafe
import Verif.Props.JsonTypes
import Verif.Props.Json
import Verif.Props.JsonMore
import Verif.Model.Order
import Verif.Spec.Header
import Verif.Proofs.HeaderNames
import Verif.Proofs.HeaderDeps
import Verif.Proofs.HeaderOrder
import Verif.Proofs.HeaderEmit
import Verif.Proofs.HeaderUses
import Verif.Proofs.HeaderCheck
import Verif.Props.Header
import Verif.Model.Indirect
import Verif.Spec.Indirect
import Verif.Proofs.Indirect
import Verif.Proofs.IndirectStep
import Verif.Proofs.IndirectRun
import Verif.Props.Indirect
import Verif.Model.Names
import Verif.Spec.Names
import Verif.Proofs.Names
import Verif.Proofs.NamesTree
import Verif.Proofs.NamesFile
import Verif.Proofs.NamesLegal
import Verif.Props.Names
import Verif.Model.GenJson
import Verif.Spec.GenJson
import Verif.Proofs.GenJsonWrite
import Verif.Proofs.GenJsonRead
import Verif.Proofs.GenJsonStyle
import Verif.Proofs.GenJsonSafe
import Verif.Props.GenJsonTypes
import Verif.Props.GenJson
import Verif.Props.GenJsonMore
import Verif.Model.Meta
import Verif.Spec.Meta
import Verif.Proofs.MetaView
import Verif.Proofs.Meta
import Verif.Proofs.MetaSlots
import Verif.Proofs.MetaClass
import Verif.Proofs.MetaOk
import Verif.Proofs.MetaEnum
import Verif.Props.EnumValid
import Verif.Props.Meta
import Verif.Props.MetaMore
import Verif.Model.Plugin
import Verif.Spec.Plugin
import Verif.Proofs.Plugin
import Verif.Proofs.PluginFiles
import Verif.Props.Plugin
import Verif.Model.AnyJson
import Verif.Spec.AnyJson
import Verif.Proofs.AnyJsonWrite
import Verif.Proofs.AnyJsonRead
import Verif.Proofs.AnyJsonLevel
import Verif.Proofs.AnyJsonFlat
import Verif.Proofs.JsonColons
import Verif.Props.AnyJsonTypes
import Verif.Props.AnyJson
import Verif.Props.AnyJsonMore
import Verif.Model.Factory
import Verif.Spec.Factory
import Verif.Proofs.Factory
import Verif.Proofs.FactoryTypes
import Verif.Props.Factory
import Verif.Props.FactoryMore
import Verif.Spec.WellKnown
import Verif.Proofs.FactoryJson
import Verif.Props.FactoryJson
import Verif.Proofs.ReadObject
import Verif.Props.ReadObject
import Verif.Model.DescriptorBytes
import Verif.Spec.DescriptorBytes
import Verif.Proofs.DescriptorTypes
import Verif.Proofs.DescriptorFiles
import Verif.Proofs.DescriptorSet
import Verif.Proofs.DescriptorTidy
import Verif.Proofs.FactoryEnv
import Verif.Props.DescriptorBytes
import Verif.Model.Optional
import Verif.Props.Optional
import Verif.Model.RepeatedMemory
import Verif.Proofs.RepeatedMemory
import Verif.Props.RepeatedMemory
import Verif.Model.GenExtension
import Verif.Spec.GenExtension
import Verif.Proofs.GenExtension
import Verif.Props.GenExtension
import Verif.Model.MessageMemory
import Verif.Spec.MessageMemory
import Verif.Proofs.MessageMemory
import Verif.Proofs.MessageMemoryOps
import Verif.Proofs.MessageMemoryClone
import Verif.Proofs.MessageMemoryPaths
import Verif.Proofs.MessageMemoryRun
import Verif.Props.MessageMemory
import Verif.Model.ViewMemory
import Verif.Spec.ViewMemory
import Verif.Proofs.ViewMemory
import Verif.Proofs.ViewMemoryRead
import Verif.Proofs.ViewMemoryRun
import Verif.Props.ViewMemory
import Verif.Spec.KeptFields
import Verif.Proofs.ReadObjectKept
import Verif.Props.ReadObjectKept
import Verif.Model.GrpcStream
import Verif.Spec.ClientStream
import Verif.Proofs.ClientStream
import Verif.Props.ClientStream
import Verif.Model.IndirectValue
import Verif.Spec.IndirectValue
import Verif.Proofs.IndirectValue
import Verif.Props.IndirectValue
import Verif.Model.FieldAccess
import Verif.Spec.FieldAccess
import Verif.Proofs.FieldAccess
import Verif.Props.FieldAccess
import Verif.Model.FieldIter
import Verif.Spec.FieldIter
import Verif.Proofs.FieldIter
import Verif.Props.FieldIter
import Verif.Model.GrpcServerStream
import Verif.Spec.ServerStream
import Verif.Proofs.ServerStream
import Verif.Props.ServerStream
import Verif.Model.JsonInput
import Verif.Model.PrintFlag
import Verif.Spec.JsonInput
import Verif.Spec.PrintFlag
import Verif.Proofs.PrintFlag
import Verif.Props.JsonInput
import Verif.Model.JsonAlways
import Verif.Spec.JsonAlways
import Verif.Proofs.JsonAlways
import Verif.Props.JsonAlways
import Verif.Model.FlatMaps
import Verif.Spec.FlatMaps
import Verif.Proofs.FlatMaps
import Verif.Props.FlatMaps
import Verif.Model.IndirectView
import Verif.Spec.IndirectView
import Verif.Proofs.IndirectView
import Verif.Props.IndirectView
import Verif.Model.JsonViews
import Verif.Spec.JsonViews
import Verif.Proofs.JsonViews
import Verif.Props.JsonViews
import Verif.Model.FloatLiteral
import Verif.Spec.FloatLiteral
import Verif.Proofs.FloatLiteral
import Verif.Props.FloatLiteral
import Verif.Model.GrpcRoutes
import Verif.Spec.GrpcRoutes
import Verif.Proofs.GrpcRoutes
import Verif.Props.GrpcRoutes
import Verif.Model.IndirectMonadic
import Verif.Props.IndirectMonadic
import Verif.Model.ByteOrder
import Verif.Proofs.ByteOrder
import Verif.Props.ByteOrder
import Verif.Model.Utf8Switch
import Verif.Proofs.Utf8Mono
import Verif.Proofs.Utf8Write
import Verif.Proofs.Utf8Dynamic
import Verif.Proofs.Utf8Same
import Verif.Props.Utf8Switch
import Verif.Model.EnumDefault
import Verif.Props.EnumDefault
