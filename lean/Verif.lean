import Verif.Props.Wire
import Verif.Props.Tls
import Verif.Props.Error
import Verif.Props.Crypt
import Verif.Props.EncryptFile
import Verif.Props.Lve
import Verif.Props.LveLicense
import Verif.Props.LveFile
import Verif.Props.LveSafe
import Verif.Props.Tool
import Verif.Props.ToolSend
import Verif.Props.EndToEnd
import Verif.Props.LveMain
import Verif.Props.Embed
import Verif.Props.PackArgs
import Verif.Props.Manifest
import Verif.Props.Pack
import Verif.Props.PackUnpack
import Verif.Props.PackManifest
import Verif.Props.PackFail
import Verif.Props.PackWalk
import Verif.Props.Process
import Verif.Props.Start
import Verif.Props.PackClean
import Verif.Props.PackExtra
import Verif.Props.LveAnswers
import Verif.Props.PackServe
import Verif.Props.Log
import Verif.Props.PackPlace
import Verif.Props.BuildTools
import Verif.Props.ToolHeap
import Verif.Props.LveHeap
import Verif.Props.Diag
import Verif.Props.TestLicense
import Verif.Props.PackPaths
import Verif.Props.SpawnWindows
import Verif.Props.Pipes
import Verif.Props.KeyList
import Verif.Props.PackWin
import Verif.Props.WinFiles
import Verif.Props.Version
import Verif.Props.Case
import Verif.Props.MaskHash
import Verif.Props.Zip
import Verif.Props.SslObjects
import Verif.Props.MolFile
import Verif.Props.LveWin
import Verif.Props.PackCleanWin
import Verif.Props.FullDisk
import Verif.Props.CopyFile
import Verif.Props.PackDisk
