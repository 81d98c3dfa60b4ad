import Verif.MemFns.Props
import Verif.Str.LenCmp
import Verif.Str.Search
import Verif.Str.Copy
import Verif.Str.Tok
import Verif.Strtol.Props
import Verif.Utf8.Conv
import Verif.Sort.Props
import Verif.Search.Tree
import Verif.Search.Hash
import Verif.Search.Linear
import Verif.Env.Env
import Verif.Getopt.Props
import Verif.Stdio.Getdelim
import Verif.Stdio.Mem
import Verif.Printf.Props
import Verif.Conc.MutexProps
import Verif.Conc.FutexLockProps
import Verif.Conc.Spin
import Verif.Conc.Once
import Verif.Conc.Cond
import Verif.Conc.Sem
import Verif.Conc.BarrierProps
import Verif.Conc.RwlockProps
import Verif.Conc.Join
import Verif.Thread.Keys
import Verif.Thread.Exit
import Verif.Process.AtExit
import Verif.Sets.SigSet
import Verif.Sets.CpuSet
import Verif.Net.ByteOrder
import Verif.Time.Deadline
import Verif.Path.Libgen
import Verif.Stdlib.Getsubopt
import Verif.Stdio.Mode
import Verif.Stdlib.AllocSize
import Verif.Alloc.Debug
import Verif.Net.InetText
import Verif.Net.Inet4
import Verif.Net.Inet6
import Verif.Net.Inet6Parse
import Verif.Net.Dns
import Verif.Time.Calendar
import Verif.Time.Strftime
import Verif.Time.Strptime
import Verif.Shell.Wordexp
import Verif.Stdlib.Random
import Verif.Path.Realpath
import Verif.Rtld.InitOrder
import Verif.Rtld.Tls
import Verif.Rtld.Symbols
import Verif.Stdio.Scanf
import Verif.Time.Tz
import Verif.Time.TzFile
import Verif.Db.Text
import Verif.Db.Group
import Verif.Db.Passwd
import Verif.Db.Shadow
import Verif.Unistd.Exec
import Verif.Unistd.Getcwd
import Verif.Unistd.Spawn
import Verif.Unistd.Fork
import Verif.Unistd.Ftw
import Verif.Getopt.Long
import Verif.Conc.CancelProps
import Verif.Unistd.Dirent
import Verif.Db.Mntent
import Verif.Unistd.Syslog
import Verif.Db.Words
import Verif.Net.Services
import Verif.Net.ServPort
import Verif.Net.Hosts
import Verif.Net.AddrInfo
import Verif.Db.Proto
import Verif.Wchar.Width
import Verif.Wchar.Posix
import Verif.Locale.Names
import Verif.Locale.Set
import Verif.Locale.Hist
import Verif.Strtod.Model
import Verif.Strtod.Parse
import Verif.Strtod.Value
import Verif.Strtod.Ieee
import Verif.Unistd.Utmp
import Verif.Unistd.Shell
import Verif.Str.Vector
import Verif.Str.Version
import Verif.Rtld.Load
import Verif.Rtld.Find
import Verif.Arch.Setjmp
import Verif.Arch.Fenv
import Verif.Shell.Fnmatch
import Verif.Shell.FnmatchBytes
import Verif.Math.Bits
import Verif.Math.Arith
import Verif.Math.Round
import Verif.Math.Rem
import Verif.Math.Mul
import Verif.Math.Scale
import Verif.Math.Parts
import Verif.Math.Sqrt
import Verif.Shell.Glob
import Verif.Utf8.Plain
import Verif.Rtld.Reloc
import Verif.Locale.Collate
import Verif.Locale.Xfrm
import Verif.Locale.CtypeTables
import Verif.Locale.Ctype
import Verif.Regex.Spec
import Verif.Regex.Model
import Verif.Regex.Match
import Verif.Regex.Glushkov
import Verif.Regex.Expand
import Verif.Regex.Main
import Verif.Regex.Syntax
import Verif.Regex.Parse
import Verif.Regex.Bracket
import Verif.Regex.Text
import Verif.Conc.Atomic8
import Verif.Locale.Archive
import Verif.Time.Timeval
import Verif.Unistd.Writev
import Verif.Rtld.Versions
import Verif.Locale.Strfmon
import Verif.Regex.BasicSyntax
import Verif.Regex.BasicParse
import Verif.Regex.Basic
import Verif.Stdlib.Temp
import Verif.Sets.FdSet
import Verif.Unistd.SigName
import Verif.Thread.Attr
import Verif.Stdio.Wide
import Verif.Unistd.Lockf
import Verif.Unistd.Termios
import Verif.Unistd.Dup
import Verif.Unistd.Shm
import Verif.Unistd.Diag
import Verif.Net.SkipName
import Verif.Locale.FileWindow
import Verif.Net.Bytes
import Verif.Unistd.UtmpName
import Verif.Time.Utimes
import Verif.Unistd.Backtrace
import Verif.Unistd.Ppoll
import Verif.Net.ResolvConf
import Verif.Unistd.DevNum
import Verif.Unistd.Mqueue
import Verif.Unistd.Statx
import Verif.Unistd.AioRing
import Verif.Unistd.Listio
import Verif.Unistd.AioLife
