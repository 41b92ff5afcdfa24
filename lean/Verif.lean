import Verif.Props.Edit
import Verif.Model.Cmd
import Verif.Props.Runes
import Verif.Props.Mask
import Verif.Props.Utf8
import Verif.Props.History
import Verif.Props.HistFile
import Verif.Props.Find
import Verif.Props.Safety
import Verif.Props.Operation
import Verif.Props.Live
import Verif.Props.Menu
import Verif.Props.Record
import Verif.Props.Cancel
import Verif.Props.Vim
import Verif.Props.Callbacks
import Verif.Props.Decode
import Verif.Props.Completers
import Verif.Props.Remote
import Verif.Props.RemoteRead
import Verif.Props.Silent
import Verif.Props.RemoteWrite
import Verif.Props.Stdin
import Verif.Props.Fillable
import Verif.Props.Config
import Verif.Props.Password
import Verif.Props.Close
import Verif.Props.Channels
import Verif.Props.WrapWriter
import Verif.Props.Locks
import Verif.Props.Screen
import Verif.Props.Memory
import Verif.Props.Search
import Verif.Props.Browse
import Verif.Props.Listing
import Verif.Props.Transcript
import Verif.Spec.Console
import Verif.Model.AnsiWindows
import Verif.Proofs.Console
import Verif.Proofs.ConsoleLine
import Verif.Props.Console
import Verif.Model.Tty
import Verif.Props.Tty
import Verif.Model.RawReader
import Verif.Spec.Keyboard
import Verif.Props.RawReader
import Verif.Model.Title
import Verif.Props.Title
import Verif.Spec.Restart
import Verif.Props.Restart
import Verif.Spec.Wide
import Verif.Proofs.Wide
import Verif.Props.Wide
import Verif.Spec.VimBook
import Verif.Props.VimSession
import Verif.Props.Sitting
import Verif.Props.SearchScreen
import Verif.Proofs.Disp
import Verif.Model.Resize
import Verif.Spec.Resize
import Verif.Props.Resize
import Verif.Spec.Desk
import Verif.Proofs.Desk
import Verif.Props.Desk
import Verif.Spec.Scroll
import Verif.Proofs.Scroll
import Verif.Proofs.Roll
import Verif.Props.Scroll
import Verif.Spec.Study
import Verif.Proofs.Finder
import Verif.Proofs.Drafts
import Verif.Proofs.Study
import Verif.Props.Study
import Verif.Model.Instance
import Verif.Spec.Shelf
import Verif.Proofs.Shelf
import Verif.Props.Shelf
import Verif.Model.Shared
import Verif.Spec.Shared
import Verif.Proofs.Shared
import Verif.Props.Shared
import Verif.Model.Loop
import Verif.Spec.Loop
import Verif.Props.Loop
import Verif.Model.Tree
import Verif.Spec.Tree
import Verif.Props.Tree
import Verif.Model.OldRunes
import Verif.Props.OldRunes
import Verif.Model.RemoteCli
import Verif.Spec.Remote
import Verif.Props.RemoteCli
import Verif.Props.Small
import Verif.Spec.Shortcuts
import Verif.Props.Shortcuts
import Verif.Model.Width
import Verif.Props.Blind
import Verif.Model.Multiline
import Verif.Spec.Multiline
import Verif.Props.Multiline
import Verif.Spec.MenuScreen
import Verif.Props.MenuScreen
import Verif.Props.VimScreen
import Verif.Props.ConsoleText
import Verif.Proofs.Shape
import Verif.Props.MixedScreen
import Verif.Proofs.Rebase
import Verif.Proofs.Drift
import Verif.Props.ScrollMixed
import Verif.Proofs.Veil
import Verif.Props.Veil
import Verif.Spec.Tabs
import Verif.Proofs.Tabs
import Verif.Props.Tabs
import Verif.Spec.Twin
import Verif.Proofs.Twin
import Verif.Props.Twin
import Verif.Spec.Stars
import Verif.Proofs.Stars
import Verif.Props.Stars
import Verif.Spec.Pages
import Verif.Props.Pages
import Verif.Spec.MaskedScreen
import Verif.Props.MaskedScreen
import Verif.Props.Disable
import Verif.Model.Offset
import Verif.Props.Offset
import Verif.Model.Resume
import Verif.Spec.Resume
import Verif.Props.Resume
import Verif.Model.Negative
import Verif.Props.Negative
import Verif.Props.Reopen
import Verif.Model.VimSwitch
import Verif.Spec.VimSwitch
import Verif.Props.VimSwitch
import Verif.Model.Widths
import Verif.Spec.Widths
import Verif.Props.Widths
import Verif.Model.PassTty
import Verif.Props.PassTty
import Verif.Model.Leak
import Verif.Props.Leak
import Verif.Model.HistOpen
import Verif.Proofs.LoopFd
import Verif.Props.HistOpen
