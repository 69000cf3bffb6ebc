import Verif.Py
import Verif.Env
import Verif.Regex
import Verif.Constants
import Verif.Generic
import Verif.Entities
import Verif.Fence
import Verif.Atx
import Verif.Cmark.Subject
import Verif.Cmark.Emphasis
import Verif.Cmark.Links
import Verif.Cmark.Inlines
import Verif.Cmark.Tree
import Verif.Anchor
import Verif.Toc
import Verif.Fpyutils
import Verif.Write
import Verif.Cli
import Verif.Args
import Verif.Conformance.Atx
import Verif.Conformance.Emphasis
import Verif.Conformance.Fence
import Verif.Conformance.Generic
import Verif.Conformance.Html
import Verif.Conformance.Write
import Verif.Lemmas.Regex
import Verif.Lemmas.Strings
import Verif.Lemmas.Newlines
import Verif.Lemmas.Anchor
import Verif.Lemmas.Redcarpet
import Verif.Spec.Anchor
import Verif.Props.Anchors
import Verif.Spec.Atx
import Verif.Spec.Buffer
import Verif.Lemmas.Atx
import Verif.Props.Atx
import Verif.Props.AtxMore
import Verif.Spec.Fence
import Verif.Spec.Doc
import Verif.Lemmas.Fence
import Verif.Lemmas.Doc
import Verif.Props.Fences
import Verif.Spec.Toc
import Verif.Lemmas.Toc
import Verif.Lemmas.Entries
import Verif.Lemmas.Inline
import Verif.Lemmas.Headings
import Verif.Props.Toc
import Verif.Props.TocMore
import Verif.Spec.Write
import Verif.Lemmas.Region
import Verif.Lemmas.Write
import Verif.Lemmas.WriteMore
import Verif.Props.Writing
import Verif.Lemmas.Recog
import Verif.Lemmas.Stable
import Verif.Props.WriteToc
import Verif.Props.Cli
import Verif.Props.Regions
import Verif.Spec.Inline
import Verif.Lemmas.Html
import Verif.Lemmas.Emph
import Verif.Lemmas.EmphSafe
import Verif.Lemmas.EmphPairs
import Verif.Props.Inline
import Verif.Spec.Tags
import Verif.Lemmas.Tags
import Verif.Spec.Html
import Verif.Lemmas.HtmlExact
import Verif.Spec.Raw
import Verif.Lemmas.Scanners
import Verif.Lemmas.EmphSimple
import Verif.Spec.Markup
import Verif.Spec.Emphasis
import Verif.Spec.Helpers
import Verif.Spec.Linked
import Verif.Lemmas.EmphNested
import Verif.Lemmas.EmphScan
import Verif.Lemmas.EmphLinks
import Verif.Lemmas.EmphClosed
import Verif.Lemmas.EmphGeneral
import Verif.Lemmas.EmphCommon
import Verif.Props.Markup
import Verif.Props.Blocks
import Verif.Props.Layout
import Verif.Props.Containers
import Verif.Props.Workflow
import Verif.Props.Resume
import Verif.Props.ListOptions
import Verif.Props.Insert
import Verif.Props.Shift
import Verif.Props.Problems
import Verif.Props.LastLine
import Verif.Props.Join
import Verif.Props.Cases
import Verif.Props.Cr
import Verif.Props.Names
import Verif.Props.NoLinks
import Verif.Props.TwoMarkers
import Verif.Props.CodeBlocks
import Verif.Spec.ManyLines
import Verif.Props.ManyLines
import Verif.Props.Skipped
import Verif.Props.TwoRuns
import Verif.Props.Rest
import Verif.Props.History
import Verif.Props.Move
import Verif.Props.Check
import Verif.Props.Separate
import Verif.Props.Project
import Verif.Props.ProjectHistory
import Verif.Commands
import Verif.Props.Commands
import Verif.Props.Case
import Verif.Props.SameSlugs
import Verif.Props.Repeated
import Verif.Props.OtherMarker
import Verif.Props.Crlf
import Verif.Props.Printed
import Verif.Props.SlugTwice
import Verif.Props.Links
import Verif.Props.Locality
import Verif.Props.Slug
import Verif.Spec.Args
import Verif.Props.Args
import Verif.Spec.Simple
import Verif.Props.Document
import Verif.Lemmas.Tree
import Verif.Lemmas.TreeSteps
import Verif.Props.Tree
import Verif.Props.Meta
import Verif.Props.Emphasis
import Verif.Props.Helpers
import Verif.Lemmas.Buffers
import Verif.Props.Buffers
import Verif.Props.Success
import Verif.Cmark.Pointers
import Verif.Cmark.Buffer
import Verif.Lemmas.Pointers
import Verif.Lemmas.PointersMain
import Verif.Props.Pointers
import Verif.Props.Exact
import Verif.Props.Intervals
import Verif.Lemmas.EmphEscaped
import Verif.Spec.Ordinary
import Verif.Props.Escapes
import Verif.Spec.Outline
import Verif.Lemmas.Outline
import Verif.Props.Outline
import Verif.Steps
import Verif.Lemmas.Steps
import Verif.Props.Concurrent
import Verif.Props.Parsers
import Verif.Props.Numbers
import Verif.Props.Html
import Verif.Props.Raw
import Verif.Props.Stable
import Verif.Props.References
