import Verif.Props.JsonString
import Verif.Props.JsonInt
import Verif.Props.JsonTokens
import Verif.Props.JsonDoc
import Verif.Props.Pushback
import Verif.Props.StringInput
import Verif.Props.Members
import Verif.Props.Import
import Verif.Props.Containers
import Verif.Props.Export
import Verif.Props.RoundTrip
import Verif.Props.BsonNum
import Verif.Props.Bson
import Verif.Props.Mongo
import Verif.Props.AnyBlock
import Verif.Props.Yaml
import Verif.Props.Shared
import Verif.Props.Stream
import Verif.Spec.Sets
import Verif.Proofs.Sets
import Verif.Proofs.Indent
import Verif.Proofs.IndentShared
import Verif.Props.Sets
import Verif.Props.Float
import Verif.Props.FloatDoc
import Verif.Model.ObjectIds
import Verif.Spec.History
import Verif.Props.History
import Verif.Props.ObjectIds
import Verif.Proofs.WatchFresh
import Verif.Proofs.JsonJunk
import Verif.Proofs.JsonCut
import Verif.Proofs.JsonCut2
import Verif.Proofs.JsonCut3
import Verif.Props.JsonCut
import Verif.Model.BsonStream
import Verif.Proofs.Sim
import Verif.Proofs.BsonStream
import Verif.Proofs.BsonStreamDoc
import Verif.Proofs.BsonAhead
import Verif.Props.BsonStream
import Verif.Spec.Ends
import Verif.Spec.JsonEnds
import Verif.Proofs.Ends
import Verif.Proofs.JsonEnds
import Verif.Proofs.Lower
import Verif.Proofs.EndsExtract
import Verif.Props.Ends
import Verif.Model.BsonIds
import Verif.Model.Range
import Verif.Spec.BsonIds
import Verif.Proofs.BsonIds
import Verif.Proofs.BsonIdsPrint
import Verif.Proofs.BsonIdsExport
import Verif.Props.BsonIds
import Verif.Model.JsonSize
import Verif.Spec.JsonSize
import Verif.Proofs.JsonSize
import Verif.Props.JsonSize
import Verif.Model.Format
import Verif.Spec.Format
import Verif.Proofs.Format
import Verif.Props.Format
import Verif.Spec.YamlEnds
import Verif.Proofs.YamlEnds
import Verif.Props.YamlEnds
import Verif.Model.Builder
import Verif.Spec.Alike
import Verif.Proofs.Alike
import Verif.Props.Builder
import Verif.Model.Sink
import Verif.Props.Sink
import Verif.Spec.Typed
import Verif.Proofs.Typed
import Verif.Proofs.TypedOps
import Verif.Props.Typed
import Verif.Spec.Fits
import Verif.Proofs.Fits
import Verif.Proofs.FitsOps
import Verif.Props.Fits
import Verif.Spec.Lexis
import Verif.Proofs.Track
import Verif.Proofs.Lax1
import Verif.Proofs.Lax2
import Verif.Proofs.Lax3
import Verif.Proofs.Lax4
import Verif.Props.Lax
import Verif.Spec.Touch
import Verif.Proofs.Touch
import Verif.Props.Touch
import Verif.Model.Left
import Verif.Proofs.Left
import Verif.Proofs.LeftTyped
import Verif.Proofs.LeftKept
import Verif.Proofs.LeftInst
import Verif.Proofs.LeftLink
import Verif.Props.Left
import Verif.Spec.Modes
import Verif.Proofs.Modes
import Verif.Props.Modes
import Verif.Spec.Layers
import Verif.Proofs.Layers
import Verif.Proofs.Settles
import Verif.Props.Layers
import Verif.Spec.SameDoc
import Verif.Proofs.JsonBson
import Verif.Props.SameDoc
import Verif.Proofs.AnyMore
import Verif.Props.AnyMore
import Verif.Spec.Reexport
import Verif.Proofs.Reexport
import Verif.Props.Reexport
import Verif.Props.Injective
import Verif.Spec.BsonEnds
import Verif.Proofs.BsonEnds
import Verif.Proofs.BsonStrEnds
import Verif.Props.BsonEnds
import Verif.Proofs.JsonSEnds
import Verif.Proofs.JsonSEndsExtract
import Verif.Props.StreamEnds
import Verif.Spec.BsonGrammar
import Verif.Proofs.BsonTrack
import Verif.Proofs.BsonSTrack
import Verif.Props.BsonLax
import Verif.Model.BsonImporter
import Verif.Proofs.BsonTail
import Verif.Props.BsonTail
import Verif.Spec.SharedBson
import Verif.Model.SharedBson
import Verif.Proofs.SharedMore
import Verif.Proofs.SharedBack
import Verif.Props.SharedBson
import Verif.Spec.SharedSafe
import Verif.Spec.SharedTree
import Verif.Spec.SharedEnds
import Verif.Proofs.SharedSafe
import Verif.Proofs.SharedTree
import Verif.Proofs.SharedEnds
import Verif.Proofs.SharedDefined
import Verif.Proofs.SharedFormats
import Verif.Props.SharedLoad
import Verif.Model.Custom
import Verif.Spec.Custom
import Verif.Proofs.Custom
import Verif.Props.Custom
import Verif.Model.EnumFlag
import Verif.Spec.EnumFlag
import Verif.Proofs.EnumFlag
import Verif.Props.EnumFlag
import Verif.Model.RawBuffer
import Verif.Proofs.RawBuffer
import Verif.Props.RawBuffer
import Verif.Spec.Shape
import Verif.Proofs.ExportDefined
import Verif.Props.ExportDefined
import Verif.Model.Unwind
import Verif.Spec.YamlEvents
import Verif.Proofs.Unwind
import Verif.Proofs.UnwindText
import Verif.Proofs.UnwindYaml
import Verif.Props.Unwind
import Verif.Props.Remains
import Verif.Model.CustomFormat
import Verif.Props.CustomFormat
import Verif.Model.YamlString
import Verif.Props.YamlString
import Verif.Props.TypeField
import Verif.Props.PolyMarker
import Verif.Props.Variant
import Verif.Props.MongoText
import Verif.Props.MongoStream
import Verif.Props.StreamNumbers
import Verif.Props.StreamReals
import Verif.Props.MongoDate
import Verif.Props.BsonKeys
import Verif.Props.JsonKeys
import Verif.Props.Repeated
import Verif.Props.Elements
import Verif.Props.MemberWise
import Verif.Props.MembersOut
import Verif.Props.MapWise
import Verif.Props.Fixed
import Verif.Props.Wrapped
import Verif.Props.Spelling
import Verif.Props.MembersMore
import Verif.Props.SetsMore
import Verif.Props.MapsMore
import Verif.Props.NamesMore
import Verif.Props.PartsStream
import Verif.Props.PlacesStream
import Verif.Props.PartsBson
import Verif.Props.MembersOutYaml
import Verif.Props.ElementsYaml
