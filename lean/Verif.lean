import Verif.Props.Anchors
import Verif.Props.AttrData
import Verif.Props.AttrEntry
import Verif.Props.AttrList
import Verif.Props.AttrRefs
import Verif.Props.AuthorLine
import Verif.Props.Authors
import Verif.Props.Balanced
import Verif.Props.Base64
import Verif.Props.BlockMacro
import Verif.Props.BlockMeta
import Verif.Props.BlockSubs
import Verif.Props.Brackets
import Verif.Props.Callouts
import Verif.Props.CellSource
import Verif.Props.CellText
import Verif.Props.Checklist
import Verif.Props.CliAttr
import Verif.Props.CliJob
import Verif.Props.CollectText
import Verif.Props.Columns
import Verif.Props.Complaints
import Verif.Props.Conums
import Verif.Props.Csv
import Verif.Props.Deq
import Verif.Props.Details
import Verif.Props.Diagnostics
import Verif.Props.DirText
import Verif.Props.Directives
import Verif.Props.Discrete
import Verif.Props.DocHeader
import Verif.Props.Docinfo
import Verif.Props.Email
import Verif.Props.Encoding
import Verif.Props.Escape
import Verif.Props.Eval
import Verif.Props.Head
import Verif.Props.Html
import Verif.Props.Html5s
import Verif.Props.Icons
import Verif.Props.Ifeval
import Verif.Props.Images
import Verif.Props.IncludeProcess
import Verif.Props.IncludeText
import Verif.Props.IndexMacro
import Verif.Props.IndexTerms
import Verif.Props.InlineSource
import Verif.Props.Inlines
import Verif.Props.KeptNotes
import Verif.Props.LevelOffset
import Verif.Props.Lexer
import Verif.Props.LineKinds
import Verif.Props.LinkText
import Verif.Props.Links
import Verif.Props.ListMarks
import Verif.Props.Lists
import Verif.Props.Media
import Verif.Props.Meta
import Verif.Props.Notes
import Verif.Props.Numbering
import Verif.Props.OpenTag
import Verif.Props.Outline
import Verif.Props.Paragraphs
import Verif.Props.Passthrough
import Verif.Props.Path
import Verif.Props.Phrases
import Verif.Props.Renders
import Verif.Props.Roman
import Verif.Props.RootLexer
import Verif.Props.SectionId
import Verif.Props.Sections
import Verif.Props.SourceAttrs
import Verif.Props.SourceLoc
import Verif.Props.Stylesheet
import Verif.Props.Subs
import Verif.Props.Svg
import Verif.Props.TableTags
import Verif.Props.TableText
import Verif.Props.Tables
import Verif.Props.Tck
import Verif.Props.TckBlocks
import Verif.Props.Time
import Verif.Props.Toc
import Verif.Props.TocCheck
import Verif.Props.UiMacros
import Verif.Props.Urls
import Verif.Props.Verbatim
import Verif.Props.Wasm
import Verif.Props.Xref
