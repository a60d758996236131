import Verif.Model.Avro
import Verif.Model.AvroMap
import Verif.Model.AvroName
import Verif.Model.AvroTime
import Verif.Model.AvroWrite
import Verif.Model.Build
import Verif.Model.BuildAll
import Verif.Model.Bulk
import Verif.Model.BulkUser
import Verif.Model.Cache
import Verif.Model.Convert
import Verif.Model.Crash
import Verif.Model.Engine
import Verif.Model.FilePath
import Verif.Model.Flags
import Verif.Model.Generate
import Verif.Model.GoAst
import Verif.Model.GoParse
import Verif.Model.GoText
import Verif.Model.Graphql
import Verif.Model.GraphqlInline
import Verif.Model.GraphqlInlineAll
import Verif.Model.Instance
import Verif.Model.InstanceKeys
import Verif.Model.Loading
import Verif.Model.Main
import Verif.Model.Map
import Verif.Model.Operations
import Verif.Model.Program
import Verif.Model.Reference
import Verif.Model.Regex
import Verif.Model.SaveTree
import Verif.Model.Schema
import Verif.Model.SchemaFile
import Verif.Model.State
import Verif.Model.Strings
import Verif.Model.Struct
import Verif.Model.Tag
import Verif.Model.TransformKeys
import Verif.Model.TransformSchema
import Verif.Model.TypeText
import Verif.Model.Validator
import Verif.Model.Value
import Verif.Proofs.Accept
import Verif.Proofs.AvroGo
import Verif.Proofs.AvroMap
import Verif.Proofs.AvroSchema
import Verif.Proofs.AvroText
import Verif.Proofs.Build
import Verif.Proofs.Fields
import Verif.Proofs.Flat
import Verif.Proofs.Frame
import Verif.Proofs.Frozen
import Verif.Proofs.Full
import Verif.Proofs.GenCalm
import Verif.Proofs.GoFlat
import Verif.Proofs.GoJson
import Verif.Proofs.GoMeaning
import Verif.Proofs.GoPackage
import Verif.Proofs.GoSource
import Verif.Proofs.GoText
import Verif.Proofs.GqlFiles
import Verif.Proofs.GqlLex
import Verif.Proofs.GqlText
import Verif.Proofs.GqlWrite
import Verif.Proofs.Json
import Verif.Proofs.Load
import Verif.Proofs.Loading
import Verif.Proofs.Map
import Verif.Proofs.MapMore
import Verif.Proofs.Mirror
import Verif.Proofs.MirrorSchema
import Verif.Proofs.NoPanic
import Verif.Proofs.Own
import Verif.Proofs.Param
import Verif.Proofs.Paths
import Verif.Proofs.Positions
import Verif.Proofs.Project
import Verif.Proofs.Reference
import Verif.Proofs.Refine
import Verif.Proofs.Reify
import Verif.Proofs.Run
import Verif.Proofs.RunObj
import Verif.Proofs.Safe
import Verif.Proofs.SavePath
import Verif.Proofs.SaveSlice
import Verif.Proofs.SchemaVal
import Verif.Proofs.Semantics
import Verif.Proofs.Shape
import Verif.Proofs.Steps
import Verif.Proofs.Strings
import Verif.Proofs.TopArray
import Verif.Proofs.TopSchema
import Verif.Proofs.Val
import Verif.Proofs.Walk
import Verif.Proofs.XmlObj
import Verif.Proofs.XmlRun
import Verif.Proofs.XmlVal
import Verif.Props.C01
import Verif.Props.C01Arrays
import Verif.Props.C03
import Verif.Props.C03Arrays
import Verif.Props.C04
import Verif.Props.C04Xml
import Verif.Props.C05
import Verif.Props.C06
import Verif.Props.C07Xml
import Verif.Props.C08
import Verif.Props.C100
import Verif.Props.C101
import Verif.Props.C102
import Verif.Props.C102Embed
import Verif.Props.C103
import Verif.Props.C104
import Verif.Props.C105
import Verif.Props.C106
import Verif.Props.C11
import Verif.Props.C111
import Verif.Props.C111Embed
import Verif.Props.C126
import Verif.Props.C127
import Verif.Props.C128
import Verif.Props.C129
import Verif.Props.C130
import Verif.Props.C131
import Verif.Props.C132
import Verif.Props.C133
import Verif.Props.C134
import Verif.Props.C135
import Verif.Props.C136
import Verif.Props.C137
import Verif.Props.C138
import Verif.Props.C139
import Verif.Props.C14
import Verif.Props.C140
import Verif.Props.C141
import Verif.Props.C142
import Verif.Props.C16
import Verif.Props.C17
import Verif.Props.C18
import Verif.Props.C20
import Verif.Props.C21
import Verif.Props.C22
import Verif.Props.C24
import Verif.Props.C25
import Verif.Props.C27
import Verif.Props.C30
import Verif.Props.C31
import Verif.Props.C34
import Verif.Props.C38
import Verif.Props.C40
import Verif.Props.C41
import Verif.Props.C41Circle
import Verif.Props.C43
import Verif.Props.C44
import Verif.Props.C45
import Verif.Props.C51
import Verif.Props.C53
import Verif.Props.C54
import Verif.Props.C55
import Verif.Props.C56
import Verif.Props.C56Flat
import Verif.Props.C58
import Verif.Props.C59
import Verif.Props.C60
import Verif.Props.C61
import Verif.Props.C62
import Verif.Props.C64
import Verif.Props.C65
import Verif.Props.C66
import Verif.Props.C69
import Verif.Props.C70
import Verif.Props.C71
import Verif.Props.C72Lists
import Verif.Props.C74Exact
import Verif.Props.C75
import Verif.Props.C76
import Verif.Props.C77
import Verif.Props.C78
import Verif.Props.C79
import Verif.Props.C80
import Verif.Props.C81
import Verif.Props.C82
import Verif.Props.C83
import Verif.Props.C84
import Verif.Props.C85
import Verif.Props.C86
import Verif.Props.C87
import Verif.Props.C88
import Verif.Props.C88Circle
import Verif.Props.C89
import Verif.Props.C90
import Verif.Props.C91
import Verif.Props.C92
import Verif.Props.C92Avro
import Verif.Props.C93
import Verif.Props.C94
import Verif.Props.C95
import Verif.Props.C96
import Verif.Props.C97
import Verif.Props.C98
import Verif.Props.C99
import Verif.Props.C99All
import Verif.Props.Exact
import Verif.Props.ExactConvert
import Verif.Props.ExactFiles
import Verif.Props.ExactFind
import Verif.Props.ExactGen
import Verif.Props.ExactMore
import Verif.Props.ExactRef
import Verif.Props.ExactRest
import Verif.Props.Names
import Verif.Spec.Accept
import Verif.Spec.AtPath
import Verif.Spec.AvroGo
import Verif.Spec.AvroSchema
import Verif.Spec.AvroText
import Verif.Spec.Carry
import Verif.Spec.Check
import Verif.Spec.CheckIsolated
import Verif.Spec.CheckSimple
import Verif.Spec.CheckXml
import Verif.Spec.Command
import Verif.Spec.Conc
import Verif.Spec.Decode
import Verif.Spec.Document
import Verif.Spec.Embeds
import Verif.Spec.Eval
import Verif.Spec.Fields
import Verif.Spec.Full
import Verif.Spec.GenCalm
import Verif.Spec.GoCode
import Verif.Spec.GoFlat
import Verif.Spec.GoJson
import Verif.Spec.GoMeaning
import Verif.Spec.GoName
import Verif.Spec.GoPackage
import Verif.Spec.GoText
import Verif.Spec.GqlFiles
import Verif.Spec.GqlMeans
import Verif.Spec.GqlText
import Verif.Spec.Isolated
import Verif.Spec.Json
import Verif.Spec.Loading
import Verif.Spec.Mirror
import Verif.Spec.Operations
import Verif.Spec.Project
import Verif.Spec.Ref
import Verif.Spec.Save
import Verif.Spec.Schema
import Verif.Spec.Semantics
import Verif.Spec.Shape
import Verif.Spec.Tag
import Verif.Spec.TopArray
import Verif.Spec.Toy
import Verif.Spec.Walk
import Verif.Spec.XmlSemantics
