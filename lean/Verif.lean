import Verif.Props.Whitespace
import Verif.Props.Text
import Verif.Props.Address
import Verif.Props.Organizer
import Verif.Props.Table
import Verif.Props.TableMore
import Verif.Props.Spans
import Verif.Props.SpansOverlap
import Verif.Props.Cells
import Verif.Props.Normalizer
import Verif.Props.Copy
import Verif.Props.CopyOutcome
import Verif.Props.Xmlns
import Verif.Props.Manifest
import Verif.Props.Mixins
import Verif.Props.MetaUser
import Verif.Props.MetaUserExact
import Verif.Props.SaveHistory
import Verif.Props.DocTypes
import Verif.Props.Observer
import Verif.Props.ObserverOutcome
import Verif.Props.Dates
import Verif.Props.Base
import Verif.Props.BaseExact
import Verif.Props.Sheets
import Verif.Props.SheetsIndex
import Verif.Props.Styles
import Verif.Props.Variables
import Verif.Props.Reopen
import Verif.Props.Parts
import Verif.Props.PartsOrder
import Verif.Props.Inject
import Verif.Props.Flat
import Verif.Model.Protection
import Verif.Props.Protection
import Verif.Model.Whole
import Verif.Props.Whole
import Verif.Props.WholeMore
import Verif.Props.WholeLib
import Verif.Props.WholeDemo
import Verif.Props.Attributes
import Verif.Props.Keys
import Verif.Props.SheetsMore
import Verif.Props.Refuse
import Verif.Model.Conf
import Verif.Props.Conf
import Verif.Props.TimeParser
import Verif.Model.Controllers
import Verif.Props.Controllers
import Verif.Props.Outside
import Verif.Props.Damage
import Verif.Props.SpansExact
import Verif.Props.Float64
import Verif.Props.CellsExact
import Verif.Model.TableWrite
import Verif.Proofs.TableEdit
import Verif.Proofs.TableWrite
import Verif.Props.TableWrite
import Verif.Proofs.TableMove
import Verif.Props.TableMove
import Verif.Model.Program
import Verif.Proofs.Frame
import Verif.Proofs.Program
import Verif.Proofs.ProgTable
import Verif.Proofs.ProgText
import Verif.Proofs.ProgStep
import Verif.Proofs.ProgDoc
import Verif.Proofs.ProgAct
import Verif.Props.Program
import Verif.Props.ProgDemo
import Verif.Props.WholeBytes
import Verif.Model.Fault
import Verif.Proofs.Fault
import Verif.Props.Fault
import Verif.Model.TextProgram
import Verif.Proofs.Content
import Verif.Proofs.ContentOps
import Verif.Proofs.ContentProg
import Verif.Proofs.ContentText
import Verif.Proofs.ContentRead
import Verif.Proofs.ContentMake
import Verif.Proofs.ContentBlocks
import Verif.Props.TextProgram
import Verif.Props.TextMade
import Verif.Model.VarProgram
import Verif.Proofs.VarProgram
import Verif.Props.VarProgram
import Verif.Props.VarTexts
import Verif.Model.PageProgram
import Verif.Proofs.PageProgram
import Verif.Proofs.PageSlides
import Verif.Props.PageProgram
import Verif.Model.PageLayout
import Verif.Props.PageLayout
import Verif.Props.MetaLife
import Verif.Model.Desk
import Verif.Proofs.Desk
import Verif.Props.Desk
import Verif.Props.DeskFiles
import Verif.Props.DeskDemo
import Verif.Model.Room
import Verif.Proofs.View
import Verif.Proofs.Room
import Verif.Props.Room
import Verif.Props.RoomMoved
import Verif.Props.RoomFiles
import Verif.Props.RoomDemo
import Verif.Model.Mix
import Verif.Proofs.MixCalm
import Verif.Proofs.MixPut
import Verif.Proofs.MixOK
import Verif.Proofs.MixAct
import Verif.Proofs.MixStart
import Verif.Props.Mix
import Verif.Props.MixValues
import Verif.Props.Views
import Verif.Props.CasesTable
import Verif.Model.MixCopy
import Verif.Props.MixCopy
import Verif.Model.Books
import Verif.Props.NewTree
import Verif.Proofs.Books
import Verif.Props.Books
import Verif.Props.BooksDemo
import Verif.Model.FloatProperty
import Verif.Props.FloatProperty
import Verif.Model.Shelf
import Verif.Proofs.Shelf
import Verif.Props.Shelf
import Verif.Props.ShelfMoved
import Verif.Props.ShelfAgain
import Verif.Props.ShelfDemo
