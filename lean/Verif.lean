import Verif.Bsub.Again
import Verif.Bsub.Args
import Verif.Bsub.ArgsProps
import Verif.Bsub.Canon
import Verif.Bsub.Fuel
import Verif.Bsub.Lex
import Verif.Bsub.Model
import Verif.Bsub.Props
import Verif.Bsub.Replace
import Verif.Bsub.Space
import Verif.Bsub.Spec
import Verif.Bsub.Tree
import Verif.Client.Behaviours
import Verif.Client.BehavioursProps
import Verif.Client.Dirs
import Verif.Client.DirsLemmas
import Verif.Client.DirsProps
import Verif.Client.Execute
import Verif.Client.ExecuteProps
import Verif.Client.Files
import Verif.Client.FilesLemmas
import Verif.Client.FilesProps
import Verif.Client.Kill
import Verif.Client.KillDocker
import Verif.Client.KillProps
import Verif.Client.Library
import Verif.Client.LibraryProps
import Verif.Client.Monitor
import Verif.Client.MonitorLemmas
import Verif.Client.MonitorProps
import Verif.Client.Mount
import Verif.Client.MountProps
import Verif.Client.Report
import Verif.Client.ReportProps
import Verif.Client.Setup
import Verif.Client.SetupProps
import Verif.Client.Usage
import Verif.Client.UsageProps
import Verif.Cloud.Config
import Verif.Cloud.ConfigAdd
import Verif.Cloud.ConfigProps
import Verif.Cloud.Deploy
import Verif.Cloud.DeployIds
import Verif.Cloud.DeployLemmas
import Verif.Cloud.DeployPhase
import Verif.Cloud.DeployProps
import Verif.Cloud.DeployProps2
import Verif.Cloud.DeployProps3
import Verif.Cloud.DeploySettled
import Verif.Cloud.Flavor
import Verif.Cloud.FlavorProps
import Verif.Cloud.Known
import Verif.Cloud.KnownProps
import Verif.Cloud.RunCmd
import Verif.Cloud.RunCmdProps
import Verif.Cloud.Server
import Verif.Cloud.ServerProps
import Verif.Cloud.ServerProps2
import Verif.Cloud.Ssh
import Verif.Cloud.SshProps
import Verif.Cmd.AddFile
import Verif.Cmd.AddFileProps
import Verif.Cmd.Choose
import Verif.Cmd.ChooseProps
import Verif.Cmd.CloudDeploy
import Verif.Cmd.CloudDeployProps
import Verif.Cmd.K8sControl
import Verif.Cmd.K8sControlProps
import Verif.Cmd.K8sDeploy
import Verif.Cmd.K8sDeployProps
import Verif.Cmd.Lsf
import Verif.Cmd.LsfKill
import Verif.Cmd.LsfList
import Verif.Cmd.LsfProps
import Verif.Cmd.Manager
import Verif.Cmd.ManagerProps
import Verif.Cmd.Mod
import Verif.Cmd.ModProps
import Verif.Cmd.Mount
import Verif.Cmd.MountParse
import Verif.Cmd.MountParseProps
import Verif.Cmd.MountProps
import Verif.Cmd.Relative
import Verif.Cmd.RelativePattern
import Verif.Cmd.RelativeProps
import Verif.Cmd.Runner
import Verif.Cmd.RunnerProps
import Verif.Cmd.Status
import Verif.Cmd.StatusLemmas
import Verif.Cmd.StatusProps
import Verif.Cmd.Sync
import Verif.Cmd.SyncProps
import Verif.Heap.Lemmas
import Verif.Heap.Model
import Verif.Heap.Props
import Verif.Limiter.Lemmas
import Verif.Limiter.Lowest
import Verif.Limiter.Model
import Verif.Limiter.Parse
import Verif.Limiter.ParseProps
import Verif.Limiter.Props
import Verif.Limiter.Restart
import Verif.Limiter.RestartProps
import Verif.Limiter.Shown
import Verif.Limiter.ShownProps
import Verif.Limiter.Store
import Verif.Limiter.Wait
import Verif.Limiter.WaitProps
import Verif.Queue.Deps
import Verif.Queue.DepsExact
import Verif.Queue.Fate
import Verif.Queue.Lemmas
import Verif.Queue.Model
import Verif.Queue.Notify
import Verif.Queue.NotifyProps
import Verif.Queue.Ops
import Verif.Queue.Ops2
import Verif.Queue.Ops3
import Verif.Queue.Ops4
import Verif.Queue.Ops5
import Verif.Queue.Prim
import Verif.Queue.Prim2
import Verif.Queue.Props
import Verif.Queue.Props2
import Verif.Queue.Props3
import Verif.Queue.Stats
import Verif.Queue.StatsLemmas
import Verif.Queue.StatsProps
import Verif.Queue.StatsSpec
import Verif.Queue.Step
import Verif.Queue.Timer
import Verif.Queue.TimerInv
import Verif.Queue.TimerProps
import Verif.Queue.Trace
import Verif.Queue.Wait
import Verif.Queue.WaitProps
import Verif.Rp.Lemmas
import Verif.Rp.Model
import Verif.Rp.Props
import Verif.Rp.Props2
import Verif.Rp.Props3
import Verif.Rp.Props4
import Verif.Rp.Tokens
import Verif.Sched.Bjobs
import Verif.Sched.BjobsProps
import Verif.Sched.CloudRun
import Verif.Sched.CloudRunProps
import Verif.Sched.K8s
import Verif.Sched.K8sProps
import Verif.Sched.Local
import Verif.Sched.LocalProps
import Verif.Sched.LocalProps2
import Verif.Sched.LocalRun
import Verif.Sched.LocalRunProps
import Verif.Sched.Lsf
import Verif.Sched.LsfGroups
import Verif.Sched.LsfJobs
import Verif.Sched.LsfLemmas
import Verif.Sched.LsfMemory
import Verif.Sched.LsfParse
import Verif.Sched.LsfParseLemmas
import Verif.Sched.LsfParseProps
import Verif.Sched.LsfProps
import Verif.Sched.LsfText
import Verif.Sched.Openstack
import Verif.Sched.OpenstackProps
import Verif.Sched.Schedule
import Verif.Sched.ScheduleProps
import Verif.Sched.Spawn
import Verif.Sched.SpawnProps
import Verif.Server.Auth
import Verif.Server.AuthProps
import Verif.Server.Backup
import Verif.Server.BackupCover
import Verif.Server.BackupLemmas
import Verif.Server.BackupProps
import Verif.Server.BackupProps2
import Verif.Server.BadServers
import Verif.Server.BadServersProps
import Verif.Server.Convert
import Verif.Server.ConvertProps
import Verif.Server.Counts
import Verif.Server.CountsProps
import Verif.Server.Db
import Verif.Server.DbProps
import Verif.Server.Dead
import Verif.Server.DeadProps
import Verif.Server.Delete
import Verif.Server.DeleteProps
import Verif.Server.EndTime
import Verif.Server.EndTimeProps
import Verif.Server.Gate
import Verif.Server.GateProps
import Verif.Server.Groups
import Verif.Server.GroupsProps
import Verif.Server.InitDb
import Verif.Server.InitDbProps
import Verif.Server.Keys
import Verif.Server.KeysProps
import Verif.Server.Learn
import Verif.Server.LearnProps
import Verif.Server.LearnReq
import Verif.Server.Life
import Verif.Server.LifeLemmas
import Verif.Server.LifeProps
import Verif.Server.LifeProps2
import Verif.Server.Listing
import Verif.Server.ListingProps
import Verif.Server.LockCode
import Verif.Server.LockLemmas
import Verif.Server.LockProps
import Verif.Server.Locks
import Verif.Server.Modes
import Verif.Server.ModesProps
import Verif.Server.Modify
import Verif.Server.ModifyProps
import Verif.Server.Push
import Verif.Server.PushLemmas
import Verif.Server.PushOrder
import Verif.Server.PushProps
import Verif.Server.PushState
import Verif.Server.Rac
import Verif.Server.RacProps
import Verif.Server.RacTimer
import Verif.Server.RacTimerProps
import Verif.Server.Race
import Verif.Server.RaceCalmProps
import Verif.Server.RaceMoreProps
import Verif.Server.RaceProps
import Verif.Server.Recover
import Verif.Server.RecoverProps
import Verif.Server.Regroup
import Verif.Server.RegroupLemmas
import Verif.Server.RegroupProps
import Verif.Server.Rest
import Verif.Server.RestProps
import Verif.Server.RunnerCmd
import Verif.Server.RunnerCmdProps
import Verif.Server.RunnerTime
import Verif.Server.Sgroup
import Verif.Server.SgroupProps
import Verif.Server.Start
import Verif.Server.StartMoreProps
import Verif.Server.StartProps
import Verif.Server.Std
import Verif.Server.StdProps
import Verif.Server.Stop
import Verif.Server.StopProps
import Verif.Server.Store
import Verif.Server.StoreInv
import Verif.Server.StoreLemmas
import Verif.Server.StoreModify
import Verif.Server.StoreProps
import Verif.Server.StoreWalk
import Verif.Server.Upload
import Verif.Server.UploadProps
import Verif.Server.Waits
import Verif.Server.WaitsExact
import Verif.Server.WaitsInv
import Verif.Server.WaitsProps
import Verif.Server.WaitsStep
import Verif.Server.Warnings
import Verif.Server.WarningsProps
import Verif.Util.Bolt
import Verif.Util.Sort
import Verif.Util.Str
import Verif.Utils.BatchProps
import Verif.Utils.Config
import Verif.Utils.ConfigProps
import Verif.Utils.EnvProps
import Verif.Utils.FilterProps
import Verif.Utils.JobEnv
import Verif.Utils.JobEnvProps
import Verif.Utils.Model
import Verif.Utils.ReqProps
import Verif.Utils.SaverProps
