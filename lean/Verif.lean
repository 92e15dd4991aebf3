import Verif.Py
import Verif.Spec.CellText
import Verif.Spec.Content
import Verif.Spec.Contents
import Verif.Spec.DocHeld
import Verif.Spec.DocShown
import Verif.Spec.Document
import Verif.Spec.Elements
import Verif.Spec.File
import Verif.Spec.FileLinks
import Verif.Spec.FileParts
import Verif.Spec.FileText
import Verif.Spec.FontFile
import Verif.Spec.FontTables
import Verif.Spec.FootPage
import Verif.Spec.Footnotes
import Verif.Spec.Glyphs
import Verif.Spec.Heap
import Verif.Spec.Hex
import Verif.Spec.InBox
import Verif.Spec.InCells
import Verif.Spec.InNest
import Verif.Spec.InPage
import Verif.Spec.InWidth
import Verif.Spec.Jpeg
import Verif.Spec.Ledger
import Verif.Spec.LedgerNest
import Verif.Spec.Letters
import Verif.Spec.Links
import Verif.Spec.Literal
import Verif.Spec.Machine
import Verif.Spec.Margin
import Verif.Spec.Meaning
import Verif.Spec.Moved
import Verif.Spec.NameTree
import Verif.Spec.Nest
import Verif.Spec.NumVal
import Verif.Spec.Order
import Verif.Spec.Outline
import Verif.Spec.PageTree
import Verif.Spec.Parts
import Verif.Spec.PdfLex
import Verif.Spec.PdfObj
import Verif.Spec.Piled
import Verif.Spec.ReadDoc
import Verif.Spec.Reader
import Verif.Spec.RichText
import Verif.Spec.Roman
import Verif.Spec.ShapeRead
import Verif.Spec.Shapes
import Verif.Spec.Slice
import Verif.Spec.Style
import Verif.Spec.Styles
import Verif.Spec.TableLines
import Verif.Spec.Tables
import Verif.Spec.TextMarks
import Verif.Spec.TextWords
import Verif.Spec.Words
import Verif.Spec.Writable
import Verif.Model.Base
import Verif.Model.Cells
import Verif.Model.Color
import Verif.Model.Content
import Verif.Model.Copy
import Verif.Model.Document
import Verif.Model.Elements
import Verif.Model.FontDescriptor
import Verif.Model.Fonts
import Verif.Model.FootPage
import Verif.Model.Footnotes
import Verif.Model.Graphics
import Verif.Model.Image
import Verif.Model.ImageFile
import Verif.Model.Margin
import Verif.Model.NameTree
import Verif.Model.Nest
import Verif.Model.Outline
import Verif.Model.Page
import Verif.Model.ParObjects
import Verif.Model.Parser
import Verif.Model.PdfDoc
import Verif.Model.PdfFlow
import Verif.Model.PdfOutput
import Verif.Model.PdfPages
import Verif.Model.PdfParts
import Verif.Model.PdfTable
import Verif.Model.PdfText
import Verif.Model.Range
import Verif.Model.RichText
import Verif.Model.Roman
import Verif.Model.StyleStr
import Verif.Model.Styles
import Verif.Model.TableDefs
import Verif.Model.TableRun
import Verif.Model.Text
import Verif.Model.TextOut
import Verif.Model.Trees
import Verif.Lemmas.BookPages
import Verif.Lemmas.BoxLedger
import Verif.Lemmas.BoxMoved
import Verif.Lemmas.BoxShapes
import Verif.Lemmas.CellText
import Verif.Lemmas.Content
import Verif.Lemmas.ContentCong
import Verif.Lemmas.ContentEnds
import Verif.Lemmas.ContentZero
import Verif.Lemmas.Digits
import Verif.Lemmas.DocLeaf
import Verif.Lemmas.DocNest
import Verif.Lemmas.DocOps
import Verif.Lemmas.Document
import Verif.Lemmas.FileFonts
import Verif.Lemmas.FileLinks
import Verif.Lemmas.FilePages
import Verif.Lemmas.FileParts
import Verif.Lemmas.FileText
import Verif.Lemmas.FootMarks
import Verif.Lemmas.FootPage
import Verif.Lemmas.GraphicsQuiet
import Verif.Lemmas.InWidth
import Verif.Lemmas.Lex
import Verif.Lemmas.Literal
import Verif.Lemmas.Machine
import Verif.Lemmas.NameTree
import Verif.Lemmas.Nest
import Verif.Lemmas.NestMoved
import Verif.Lemmas.NestOrder
import Verif.Lemmas.Output
import Verif.Lemmas.ParObjects
import Verif.Lemmas.Parser
import Verif.Lemmas.PdfOutput
import Verif.Lemmas.PdfTrees
import Verif.Lemmas.Range
import Verif.Lemmas.ReadDoc
import Verif.Lemmas.Reader
import Verif.Lemmas.Roman
import Verif.Lemmas.Roundtrip
import Verif.Lemmas.Serialize
import Verif.Lemmas.Stream
import Verif.Lemmas.Styles
import Verif.Lemmas.Table
import Verif.Lemmas.TableCong
import Verif.Lemmas.TableEnds
import Verif.Lemmas.TableGrid
import Verif.Lemmas.TableGridEnd
import Verif.Lemmas.TableGridRow
import Verif.Lemmas.TableGridRun
import Verif.Lemmas.TableLines
import Verif.Lemmas.TableMoved
import Verif.Lemmas.TableParts
import Verif.Lemmas.TableRun
import Verif.Lemmas.TableZero
import Verif.Lemmas.Text
import Verif.Lemmas.TextFull
import Verif.Lemmas.TextIds
import Verif.Lemmas.TextLower
import Verif.Lemmas.TextMarks
import Verif.Lemmas.TextMarksPlace
import Verif.Lemmas.TextOps
import Verif.Lemmas.TextPlace
import Verif.Lemmas.TextRun
import Verif.Lemmas.UsedFonts
import Verif.Lemmas.Writable
import Verif.Lemmas.WritableBook
import Verif.Lemmas.WritableDoc
import Verif.Lemmas.WritableTrees
import Verif.Props.C01_C06_Base
import Verif.Props.C07_C08_Serialize
import Verif.Props.C09_C11_Strings
import Verif.Props.C12_Roman
import Verif.Props.C13_C14_Range
import Verif.Props.C15_Margin
import Verif.Props.C16_StyleStr
import Verif.Props.C17_Color
import Verif.Props.C18_Graphics
import Verif.Props.C19_Defaults
import Verif.Props.C19_Page
import Verif.Props.C20_Letters
import Verif.Props.C20_Words
import Verif.Props.C21_Width
import Verif.Props.C22_C23_Height
import Verif.Props.C24_Checkpoint
import Verif.Props.C25_RichText
import Verif.Props.C26_TextState
import Verif.Props.C27_C28_Place
import Verif.Props.C29_C33_Cells
import Verif.Props.C30_C32_C34_Table
import Verif.Props.C31_Height
import Verif.Props.C35_C37_Content
import Verif.Props.C36_Balance
import Verif.Props.C38_Group
import Verif.Props.C39_Images
import Verif.Props.C40_C41_Page
import Verif.Props.C42_Fonts
import Verif.Props.C43_Registered
import Verif.Props.C44_PageTree
import Verif.Props.C45_NameTree
import Verif.Props.C46_C47_Outline
import Verif.Props.C48_C49_Pages
import Verif.Props.C50_Footnotes
import Verif.Props.C51_Jpeg
import Verif.Props.C52_Links
import Verif.Props.C53_Running
import Verif.Props.C54_Copy
import Verif.Props.C56_C59_Parts
import Verif.Props.C60_C61_FontFile
import Verif.Props.C62_CellText
import Verif.Props.C63_TableEnds
import Verif.Props.C64_ReadBack
import Verif.Props.C65_Document
import Verif.Props.C65_Operations
import Verif.Props.C66_TableLines
import Verif.Props.C67_TextMarks
import Verif.Props.C68_Baselines
import Verif.Props.C69_Nested
import Verif.Props.C70_BoxWords
import Verif.Props.C71_Styles
import Verif.Props.C72_C73_Defaults
import Verif.Props.C74_ImageFile
import Verif.Props.C75_ContentEnds
import Verif.Props.C76_ParObjects
import Verif.Props.C77_FileText
import Verif.Props.C78_Margins
import Verif.Props.C79_Styles
import Verif.Props.C80_FileTables
import Verif.Props.C81_FontDescriptor
import Verif.Props.C82_Elements
import Verif.Props.C83_InCells
import Verif.Props.C84_Book
import Verif.Props.C85_InBox
import Verif.Props.C86_Piled
import Verif.Props.C87_InNest
import Verif.Props.C88_InPage
import Verif.Props.C89_FileLinks
import Verif.Props.C90_InWidth
import Verif.Props.C91_Book
import Verif.Props.C91_Writable
import Verif.Props.C92_InFile
import Verif.Props.C92_Shapes
import Verif.Props.C93_InFile
import Verif.Props.C93_Ledger
import Verif.Props.C94_Moved
import Verif.Props.C95_FootPage
import Verif.Props.C96_Lower
import Verif.PyDict
