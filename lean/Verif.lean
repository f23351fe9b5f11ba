import Verif.Model.Base
import Verif.Lemmas.Base
import Verif.Model.Fs
import Verif.Model.Rules
import Verif.Model.Trans
import Verif.Lemmas.Fs
import Verif.Spec.Trans
import Verif.Lemmas.Trans
import Verif.Lemmas.Disk
import Verif.Lemmas.Hist
import Verif.Props.TransDb
import Verif.Lemmas.Names
import Verif.Props.Remove
import Verif.Lemmas.Tree
import Verif.Props.TransFs
import Verif.Model.Strings
import Verif.Spec.Strings
import Verif.Lemmas.Lists
import Verif.Props.Strings
import Verif.Model.RuleFile
import Verif.Props.Rules
import Verif.Model.Crash
import Verif.Props.Crash
import Verif.Props.PostInstall
import Verif.Model.Numbers
import Verif.Props.Numbers
import Verif.Model.Paths
import Verif.Model.Lock
import Verif.Props.Inside
import Verif.Props.Lock
import Verif.Model.RemoveCmd
import Verif.Lemmas.Graph
import Verif.Spec.RemoveCmd
import Verif.Props.RemoveCmd
import Verif.Model.LineFile
import Verif.Props.LineFile
import Verif.Model.Repo
import Verif.Spec.Repo
import Verif.Props.Repo
import Verif.Props.RepoQuery
import Verif.Model.RemoveFile
import Verif.Props.RemoveFile
import Verif.Model.Containers
import Verif.Props.Containers
import Verif.Model.Argv
import Verif.Spec.Argv
import Verif.Props.Argv
import Verif.Model.Conf
import Verif.Spec.Conf
import Verif.Props.Conf
import Verif.Model.Ports
import Verif.Lemmas.Levels
import Verif.Spec.Ports
import Verif.Props.Ports
import Verif.Model.Pkgfile
import Verif.Spec.Pkgfile
import Verif.Props.Pkgfile
import Verif.Model.Resolve
import Verif.Spec.Resolve
import Verif.Props.Resolve
import Verif.Props.Verify
import Verif.Model.Upgrade
import Verif.Spec.Upgrade
import Verif.Lemmas.Single
import Verif.Props.Upgrade
import Verif.Model.Install
import Verif.Spec.Install
import Verif.Lemmas.Process
import Verif.Lemmas.Jobs
import Verif.Lemmas.InstCmd
import Verif.Props.Install
import Verif.Props.InstallOne
import Verif.Lemmas.UpgCmd
import Verif.Props.UpgradeRun
import Verif.Props.Alias
import Verif.Props.RemoveTree
import Verif.Props.Query
import Verif.Props.InstallAll
import Verif.Props.RepoCmds
import Verif.Props.Search
import Verif.Props.Elf
import Verif.Props.Meta
import Verif.Props.Root
import Verif.Model.Create
import Verif.Model.Sync
import Verif.Spec.Create
import Verif.Lemmas.Create
import Verif.Lemmas.CreateEnv
import Verif.Lemmas.CreateCmd
import Verif.Props.Create
import Verif.Props.CreateBase
import Verif.Props.CreateColl
import Verif.Props.CreateNoMeta
import Verif.Spec.Sync
import Verif.Props.Sync
import Verif.Props.Publish
import Verif.Props.Purge
import Verif.Model.Archive
import Verif.Spec.Archive
import Verif.Props.Archive
import Verif.Model.Tools
import Verif.Spec.Tools
import Verif.Props.Tools
import Verif.Props.Signs
import Verif.Model.Main
import Verif.Props.Main
import Verif.Model.Halt
import Verif.Props.Halt
import Verif.Model.LibCheck
import Verif.Spec.LibCheck
import Verif.Props.LibCheck
import Verif.Props.RoundTrip
import Verif.Props.Trigger
import Verif.Props.Footprint
import Verif.Props.Prefetch
import Verif.Props.Stopped
import Verif.Props.Replace
import Verif.Model.Keys
import Verif.Props.Keys
import Verif.Model.Report
import Verif.Spec.Report
import Verif.Props.Report
import Verif.Model.InfoCmd
import Verif.Props.InfoCmd
import Verif.Model.Web
import Verif.Props.WebReq
import Verif.Props.WebPkgs
import Verif.Props.WebDocs
import Verif.Props.SplitAll
import Verif.Props.PkgmkRepo
import Verif.Props.PkgmkNames
import Verif.Props.PkgmkMeta
import Verif.Props.PkgmkRun
import Verif.Props.PkgmkMan
import Verif.Props.PkgmkSrc
import Verif.Props.BuildLog
import Verif.Props.FileUtils
import Verif.Model.Gui
import Verif.Props.Gui
import Verif.Model.GuiJobs
import Verif.Props.GuiJobs
import Verif.Model.GuiGo
import Verif.Props.GuiGo
import Verif.Props.History
import Verif.Model.Progress
import Verif.Props.Progress
import Verif.Model.Mybld
import Verif.Props.Mybld
import Verif.Model.MybldClean
import Verif.Props.MybldClean
import Verif.Model.ResolveLibs
import Verif.Props.ResolveLibs
import Verif.Model.Outdated
import Verif.Props.Outdated
import Verif.Model.PkgmkCheck
import Verif.Props.PkgmkCheck
import Verif.Model.Forum
import Verif.Props.Forum
import Verif.Model.FileHash
import Verif.Props.FileHash
import Verif.Model.ElfMem
import Verif.Props.ElfMem
import Verif.Props.Whole
import Verif.Props.Whole2
import Verif.Model.RepoRun
import Verif.Props.RepoRun
import Verif.Model.PkgmkOpts
import Verif.Props.PkgmkOpts
import Verif.Model.PkgmkAgain
import Verif.Props.PkgmkAgain
import Verif.Model.PkgmkTar
import Verif.Props.PkgmkTar
import Verif.Model.PkgmkInst
import Verif.Model.PkgmkUnpack
import Verif.Props.PkgmkInst
import Verif.Props.PkgmkUnpack
import Verif.Props.SearchExact
import Verif.Model.MybldPorts
import Verif.Model.Firmware
import Verif.Props.MybldPorts
import Verif.Props.Firmware
import Verif.Model.PkgmkDeps
import Verif.Model.PkgmkBegin
import Verif.Props.PkgmkDeps
import Verif.Props.PkgmkBegin
import Verif.Model.ScriptArgs
import Verif.Props.ScriptArgs
import Verif.Props.Whole3
import Verif.Model.WebMain
import Verif.Props.WebMain
import Verif.Model.OutReport
import Verif.Props.OutReport
import Verif.Model.Links
import Verif.Props.Links
import Verif.Model.GuiLog
import Verif.Props.GuiLog
import Verif.Model.Handlers
import Verif.Props.Handlers
import Verif.Props.Whole4
import Verif.Model.Shipped
import Verif.Props.Shipped
import Verif.Model.PkgmkKill
import Verif.Props.PkgmkKill
import Verif.Model.PkgmkRace
import Verif.Props.PkgmkRace
import Verif.Model.EndToEnd
import Verif.Props.EndToEnd
import Verif.Props.EndAgain
import Verif.Model.MybldSync
import Verif.Props.MybldSync
import Verif.Props.Rebuild
import Verif.Props.EndKeep
import Verif.Props.EndAll
import Verif.Props.EndGone
import Verif.Props.EndMove
import Verif.Props.EndUp
import Verif.Props.EndRest
import Verif.Props.EndOnly
import Verif.Props.EndOrder
import Verif.Props.EndDb
