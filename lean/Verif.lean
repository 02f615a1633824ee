import Verif.App
import Verif.AppSamples
import Verif.Basic
import Verif.Content
import Verif.Crawl
import Verif.Crypto
import Verif.Font
import Verif.FontFile
import Verif.GoLib
import Verif.GoPdf
import Verif.Image
import Verif.Inject
import Verif.Lemmas.Agree
import Verif.Lemmas.AgreeRun
import Verif.Lemmas.AgreeStep
import Verif.Lemmas.App
import Verif.Lemmas.Build
import Verif.Lemmas.Canon
import Verif.Lemmas.Clean
import Verif.Lemmas.Crypto
import Verif.Lemmas.DictVal
import Verif.Lemmas.Events
import Verif.Lemmas.File
import Verif.Lemmas.Find
import Verif.Lemmas.Flat
import Verif.Lemmas.FlatBuild
import Verif.Lemmas.FlatCheck
import Verif.Lemmas.FlatFont
import Verif.Lemmas.FlatImg
import Verif.Lemmas.FlatPages
import Verif.Lemmas.FlatSave
import Verif.Lemmas.Font
import Verif.Lemmas.FontFile
import Verif.Lemmas.GoPdf
import Verif.Lemmas.GoSession
import Verif.Lemmas.Image
import Verif.Lemmas.ImgObj
import Verif.Lemmas.Layout
import Verif.Lemmas.ListAux
import Verif.Lemmas.Loop
import Verif.Lemmas.Norm
import Verif.Lemmas.Normal
import Verif.Lemmas.Num
import Verif.Lemmas.Object
import Verif.Lemmas.PageOps
import Verif.Lemmas.QuickGuard
import Verif.Lemmas.Rc4
import Verif.Lemmas.RefText
import Verif.Lemmas.Refs
import Verif.Lemmas.Reopen
import Verif.Lemmas.Rewrite
import Verif.Lemmas.StdCrawl
import Verif.Lemmas.StdDict
import Verif.Lemmas.StdFont
import Verif.Lemmas.StdImg
import Verif.Lemmas.StdItems
import Verif.Lemmas.StdRun
import Verif.Lemmas.StdSaved
import Verif.Lemmas.StdUpdate
import Verif.Lemmas.Store
import Verif.Lemmas.Stream
import Verif.Lemmas.Succeed
import Verif.Lemmas.Tidy
import Verif.Lemmas.Toks
import Verif.Lemmas.Trim
import Verif.Lemmas.TtfRead
import Verif.Lemmas.Utf8
import Verif.Lemmas.Words
import Verif.Lemmas.Writer
import Verif.Parser
import Verif.Props
import Verif.Render
import Verif.Samples
import Verif.Spec.Clean
import Verif.Spec.Content
import Verif.Spec.Crypto
import Verif.Spec.File
import Verif.Spec.Flat
import Verif.Spec.Font
import Verif.Spec.FontFile
import Verif.Spec.GoFonts
import Verif.Spec.GoPdf
import Verif.Spec.GoPen
import Verif.Spec.GoSeal
import Verif.Spec.GoText
import Verif.Spec.Image
import Verif.Spec.Kern
import Verif.Spec.Layout
import Verif.Spec.Names
import Verif.Spec.Object
import Verif.Spec.PageTree
import Verif.Spec.Paint
import Verif.Spec.Plain
import Verif.Spec.Protected
import Verif.Spec.Reopen
import Verif.Spec.Save
import Verif.Spec.StdSave
import Verif.Spec.StdTree
import Verif.Spec.TtfFile
import Verif.Spec.Xref
import Verif.Store
import Verif.Theorems.Agree
import Verif.Theorems.App
import Verif.Theorems.Astral
import Verif.Theorems.BarePage
import Verif.Theorems.Blank
import Verif.Theorems.BracketName
import Verif.Theorems.Cache
import Verif.Theorems.CellText
import Verif.Theorems.Clear
import Verif.Theorems.ClearStrings
import Verif.Theorems.Content
import Verif.Theorems.Contents
import Verif.Theorems.Copied
import Verif.Theorems.Crypto
import Verif.Theorems.Dated
import Verif.Theorems.DoubledKeys
import Verif.Theorems.Failed
import Verif.Theorems.File
import Verif.Theorems.Font
import Verif.Theorems.FontFile
import Verif.Theorems.FontObj
import Verif.Theorems.FontRead
import Verif.Theorems.FontSample
import Verif.Theorems.Fonts
import Verif.Theorems.Fresh
import Verif.Theorems.GoDraw
import Verif.Theorems.GoFile
import Verif.Theorems.GoFontObj
import Verif.Theorems.GoFontSample
import Verif.Theorems.GoFonts
import Verif.Theorems.GoOpen
import Verif.Theorems.GoPages
import Verif.Theorems.GoPen
import Verif.Theorems.GoSeal
import Verif.Theorems.GoSealSample
import Verif.Theorems.GoSession
import Verif.Theorems.GoText
import Verif.Theorems.GoTextSample
import Verif.Theorems.Held
import Verif.Theorems.Image
import Verif.Theorems.ImgObj
import Verif.Theorems.Inherited
import Verif.Theorems.Kern
import Verif.Theorems.KernTable
import Verif.Theorems.Keywords
import Verif.Theorems.LastOfGroup
import Verif.Theorems.Layout
import Verif.Theorems.Leftover
import Verif.Theorems.Limits
import Verif.Theorems.Lookup
import Verif.Theorems.Lost
import Verif.Theorems.Moved
import Verif.Theorems.Names
import Verif.Theorems.NestedParts
import Verif.Theorems.OldParents
import Verif.Theorems.OwnMask
import Verif.Theorems.Pages
import Verif.Theorems.Paint
import Verif.Theorems.PaintPage
import Verif.Theorems.Props
import Verif.Theorems.Protected
import Verif.Theorems.Renamed
import Verif.Theorems.Reopen
import Verif.Theorems.Risen
import Verif.Theorems.Save
import Verif.Theorems.Saved
import Verif.Theorems.SavedExample
import Verif.Theorems.SavedImg
import Verif.Theorems.Session
import Verif.Theorems.SharedGlyph
import Verif.Theorems.SharedPage
import Verif.Theorems.Spread
import Verif.Theorems.StdEdit
import Verif.Theorems.StdHist
import Verif.Theorems.StdLocked
import Verif.Theorems.StdRun
import Verif.Theorems.StdSave
import Verif.Theorems.StdSeal
import Verif.Theorems.StdSeen
import Verif.Theorems.StdTree
import Verif.Theorems.Subset
import Verif.Theorems.Succeed
import Verif.Theorems.Text
import Verif.Theorems.Twice
import Verif.Theorems.Underline
import Verif.Theorems.Unset
import Verif.Theorems.Untouched
import Verif.Theorems.Wrap
import Verif.Theorems.WrapPlace
import Verif.Theorems.WrittenTwice
import Verif.Theorems.Xref
import Verif.TtfParse
import Verif.Utf8
import Verif.Wrap
import Verif.Writer
