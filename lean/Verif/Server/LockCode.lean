import Verif.Server.Locks
/-!
# The locks that the server's functions take

For each function of the queue, the limiter, the database, the local scheduler and the server that takes a lock, which locks it takes,
in which order and which inside which (see `Verif/Server/Locks.lean` for what the programs mean).

Left out, and so taken to end by themselves: bbolt's transactions, commands that are run, ssh, writing to sockets and web sockets,
channels (those of the queue's timers and of waiting reserves are the subject of C99, C100 and C86) and the broadcasters for the status
page, waits with a limit of time (`waitgroup.Wait`). The locks of the schedulers for LSF, OpenStack and Kubernetes and of the objects
for cloud servers are not modelled: the scheduler here is the local one. A goroutine that a function starts is a call of its own, which
may begin at any time. A lock that is taken by one function and given back by a goroutine it started (server.go:1566-1571) is taken by
the goroutine here: the group is new and nobody else knows it until the goroutine has been started.

Simplified: what a function of the queue does to items and sub-queues is any sequence of taking and giving back their locks (`work`).
-/
namespace Verif.Server.Locks

/-- The kinds of locks. -/
inductive Lk where
  /-- `wsWriteMutexes[…]` of a web socket, server.go:3100 -/
  | wsWrite
  /-- `Server.bsmutex` -/
  | bs
  /-- `Server.ssmutex` -/
  | ss
  /-- `Server.psgmutex` -/
  | psg
  /-- a `sgroup`, server.go:261-268 -/
  | group
  /-- `Server.racmutex` -/
  | rac
  /-- `Scheduler`, scheduler.go:301-325 -/
  | sched
  /-- `local.mutex` -/
  | lmutex
  /-- `local.rcMutex` -/
  | lrc
  /-- a `job` of the local scheduler -/
  | ljob
  /-- `local.runMutex` -/
  | lrun
  /-- `local.apMutex` -/
  | lap
  /-- `local.cleanMutex` -/
  | lclean
  /-- `local.rpMutex` -/
  | lrp
  /-- `local.resourceMutex` -/
  | lres
  /-- `mutex` of the local scheduler's queue -/
  | lqueue
  /-- `mutex` of a sub-queue of it -/
  | lsub
  /-- `mutex` of an item of it -/
  | litem
  /-- a `Job` that is a copy made for one call (serverCLI.go:812-856, or read from the database) -/
  | copy
  /-- `Server.rpl` -/
  | rpl
  /-- `db` -/
  | db
  /-- `mutex` of the server's queue -/
  | queue
  /-- a `Job` in the queue -/
  | job
  /-- `Limiter.mu` -/
  | lim
  /-- `mutex` of a sub-queue of the server's queue -/
  | sub
  /-- `mutex` of an item of it -/
  | item
  /-- `db.wgMutex` -/
  | wg
  /-- `Queue.readyAddedCbMutex` -/
  | cb
  /-- `Server.rpmutex` -/
  | rp
  /-- `Server.simutex` -/
  | si
  /-- `Server.krmutex` -/
  | kr
  /-- `Server.jsmutex` -/
  | js
  /-- `Server.wsmutex` -/
  | ws
  deriving DecidableEq

abbrev P := Prog Lk

/-- `Lock` … `Unlock` -/
def W (l : Lk) (b : P := .skip) : P := .lock l true false b
/-- `RLock` … `RUnlock` -/
def R (l : Lk) (b : P := .skip) : P := .lock l false false b
/-- one after the other -/
def all : List P → P
  | [] => .skip
  | p :: ps => .seq p (all ps)
/-- one of them -/
def any : List P → P
  | [] => .skip
  | [p] => p
  | p :: ps => .alt p (any ps)
/-- or not -/
def opt (p : P) : P := .alt p .skip
/-- any number of times -/
def rep (ps : List P) : P := .many (all ps)

/-! ## The queue -/

/-- The locks of one queue; `cb` if callbacks are set. -/
structure QL where
  queue : Lk
  sub : Lk
  item : Lk
  cb : Bool

/-- server.go:1277-1290: the server's queue has callbacks. -/
def SQ : QL := ⟨.queue, .sub, .item, true⟩
/-- local.go:129-140: that of the local scheduler has none. -/
def LQ : QL := ⟨.lqueue, .lsub, .litem, false⟩

/-- subqueue.go:259-286 `Swap` -/
def swap (q : QL) : P := W q.item (opt (.lock q.item true true .skip))

/-- subqueue.go:67-332, bury_queue.go:37-87, dependency_queue.go:41-91: methods of sub-queues; item.go:115-416: of items -/
def work (q : QL) : P := .many (any [R q.item, W q.item, R q.sub, W q.sub (.many (any [W q.item, swap q]))])

/-- queue.go:324-332 `changed` -/
def changed (q : QL) : P := if q.cb then .many (R q.item) else .skip

/-- queue.go:265-275 `readyAdded`; the goroutine is `readyAddedRun` -/
def readyAdded (q : QL) : P := if q.cb then W .cb else .skip

/-- queue.go:1277-1286 `delayNotificationTrigger`, 1369-1378 `ttrNotificationTrigger` -/
def trigger (q : QL) : P := R q.queue

/-- queue.go:346-364 `Destroy` -/
def qDestroy (q : QL) : P := W q.queue (work q)
/-- queue.go:368-380 `Stats` -/
def qStats (q : QL) : P := R q.queue (work q)
/-- queue.go:410-419 `Add`, 441-480, 486-495 `AddWithSize` -/
def qAdd (q : QL) : P :=
  all [W q.queue (work q), any [changed q, all [trigger q, changed q], all [changed q, readyAdded q], all [changed q, trigger q]]]
/-- queue.go:536-621 `AddMany`; the triggers are deferred -/
def qAddMany (q : QL) : P :=
  all [W q.queue (work q), opt (all [changed q, readyAdded q]), opt (changed q), opt (changed q), opt (changed q), opt (changed q),
    opt (trigger q), opt (trigger q)]
/-- queue.go:624-637 `Get` -/
def qGet (q : QL) : P := R q.queue
/-- queue.go:641-649 `GetRunningData` -/
def qRunningData (q : QL) : P := R q.queue (work q)
/-- queue.go:653-661 `AllItems` -/
def qAllItems (q : QL) : P := R q.queue
/-- queue.go:670-805 `Update` -/
def qUpdate (q : QL) : P := all [W q.queue (work q), opt (all [readyAdded q, changed q]), opt (changed q)]
/-- queue.go:811-848 `ChangeKey` -/
def qChangeKey (q : QL) : P := W q.queue (work q)
/-- queue.go:851-879 `SetDelay` -/
def qSetDelay (q : QL) : P := all [W q.queue (work q), opt (trigger q)]
/-- queue.go:882-910 `SetReserveGroup` -/
def qSetReserveGroup (q : QL) : P := W q.queue (work q)
/-- queue.go:933-977 `Reserve`: it waits on a channel between the two -/
def qReserve (q : QL) : P := all [W q.queue (work q), opt (W q.queue (work q)), trigger q, changed q]
/-- queue.go:981-1010 `Touch` -/
def qTouch (q : QL) : P := all [W q.queue (work q), opt (trigger q)]
/-- queue.go:1014-1054 `Release` -/
def qRelease (q : QL) : P := all [W q.queue (work q), any [all [changed q, readyAdded q], all [trigger q, changed q], .skip]]
/-- queue.go:1059-1088 `Bury` -/
def qBury (q : QL) : P := all [W q.queue (work q), changed q]
/-- queue.go:1092-1128 `Kick` -/
def qKick (q : QL) : P := all [W q.queue (work q), changed q, opt (readyAdded q)]
/-- queue.go:1131-1206 `Remove`: `changed` is called with the lock -/
def qRemove (q : QL) : P := all [W q.queue (all [work q, changed q, work q]), opt (all [changed q, readyAdded q])]
/-- queue.go:1212-1222 `HasDependents` -/
def qHasDependents (q : QL) : P := W q.queue
/-- queue.go:338-342 `SetTTRCallback` -/
def qSetTTRCallback (q : QL) : P := W q.queue
/-- queue.go:1224-1275 `startDelayProcessing` -/
def qDelayProcessing (q : QL) : P := rep [W q.queue (work q), W q.queue (work q), opt (all [changed q, readyAdded q])]
/-- queue.go:1288-1367 `startTTRProcessing`; `ttrCb` is the callback -/
def qTTRProcessing (q : QL) (ttrCb : P) : P :=
  rep [W q.queue (work q), W q.queue (rep [work q, ttrCb, work q]), .many (trigger q), opt (changed q), opt (changed q),
    opt (all [changed q, readyAdded q])]
/-- subqueue.go:82-95: the goroutine of `notifyPush` -/
def qNotifyTimeout (q : QL) : P := W q.sub

/-! ## The limiter -/

/-- limiter.go:54-63 `SetLimit`, 67-77 `GetLimit`, 80-93 `GetLimits`, 97-101 `RemoveLimit`, 213-259 `Decrement`, `GetLowestLimit`,
    `GetRemainingCapacity` -/
def limOp : P := W .lim
/-- limiter.go:117-152 `Increment`: waits on a channel without the lock -/
def limIncrement : P := all [W .lim, .many (W .lim)]

/-! ## The database -/

/-- db.go:1625-1690 `backgroundBackup`; the goroutine is `dbBackupRun` -/
def dbBackground : P := W .db
/-- db.go:1694-1747 `backupToBackupFile` -/
def dbToFile : P := W .wg
/-- db.go:1638-1689: the goroutine of `backgroundBackup` -/
def dbBackupRun : P := all [dbToFile, W .db, opt dbBackground]
/-- db.go:1753-1765 `backup` -/
def dbBackup : P := R .db
/-- db.go:453-548 `storeNewJobs`, with 550-643 `prepareNewJobs`; jobs that were read from the database are copies -/
def dbStoreNewJobs : P := all [rep [R .job, R .job], .many (R .copy), opt (W .wg), opt dbBackground]
/-- db.go:689-765 `archiveJob` -/
def dbArchive : P := all [R .job, dbBackground]
/-- db.go:768-787 `deleteLiveJobs` -/
def dbDeleteLive : P := dbBackground
/-- db.go:1049-1135 `updateJobAfterExit` -/
def dbAfterExit : P := W .db (opt (all [R .job, opt (W .wg)]))
/-- db.go:1077-1134: its goroutine -/
def dbAfterExitRun : P := W .db
/-- db.go:1140-1183 `updateJobAfterChange` -/
def dbAfterChange : P := R .db (opt (all [R .job, opt (W .wg)]))
/-- db.go:1160-1183: its goroutine -/
def dbAfterChangeRun : P := dbBackground
/-- db.go:1195-1320 `modifyLiveJobs` -/
def dbModifyLive : P := rep [R .job, R .job]
/-- db.go:1324-1360 `retrieveJobStd` -/
def dbStd : P := .many (R .db)
/-- db.go:1572-1617 `close` -/
def dbClose : P := all [W .db, W .wg, W .db (opt dbToFile)]

/-! ## Jobs -/

/-- job.go:804-808 `noteIncrementedLimitGroups` -/
def noteLimits : P := W .job
/-- job.go:842-849 `decrementLimitGroups` -/
def decrementLimits : P := W .job (opt limOp)
/-- job.go:813-837 `updateAfterExit` -/
def updateAfterExit : P := all [R .job, opt (all [decrementLimits, opt (W .job)])]
/-- job.go:888-892 `getSchedulerGroup` -/
def getGroup : P := R .job
/-- job.go:896-900 `setSchedulerGroup` -/
def setGroup : P := W .job
/-- job.go:903-987 `ToStatus`, of a copy -/
def toStatus : P := R .copy

/-! ## The local scheduler -/

/-- local.go:1056-1060 `cleanedUp` -/
def cleanedUp : P := R .lclean
/-- local.go:921-931 `stopAutoProcessing` -/
def stopAuto : P := W .lap
/-- local.go:879-917 `startAutoProcessing` -/
def startAuto : P := W .lmutex (all [cleanedUp, opt (W .lap)])
/-- local.go:519-536 `removeKey` -/
def removeKey : P := all [qRemove LQ, qStats LQ, opt stopAuto]
/-- local.go:740-777 `canCount` -/
def canCount : P := R .lres
/-- local.go:541-736 `processQueue`; the goroutines are `ranCmd` and `processQueue` again -/
def processQueue : P :=
  all [W .lmutex cleanedUp, opt (all [qStats LQ,
    rep [qReserve LQ, R .litem, R .ljob (W .lrun (any [removeKey, .skip, canCount]))],
    .many (qRelease LQ), W .lmutex])]
/-- local.go:787-861 `runCmd` -/
def runCmd : P := opt (all [W .lrc, W .lres, W .lrc, W .lres])
/-- local.go:658-699: the goroutine of `processQueue` for one run of the command -/
def ranCmd : P := all [runCmd, W .ljob (W .lrun (opt removeKey)), processQueue]
/-- local.go:286-339: what `schedule` does with `s.mutex`; not what it does if `cleanup` has been called since line 249 -/
def scheduleLocked : P :=
  all [cleanedUp, qAdd LQ, opt (all [R .litem, W .ljob (all [R .lrun, opt (qUpdate LQ)]), opt removeKey])]
/-- local.go:248-345 `schedule`, without 287-289 -/
def schedule : P := all [cleanedUp, opt (all [W .lmutex scheduleLocked, opt (all [opt startAuto, processQueue])])]
/-- local.go:248-289 `schedule` if `cleanup` was called between lines 249 and 287: it returns with `s.mutex` -/
def scheduleLate : P := all [cleanedUp, W .lmutex (all [cleanedUp, .stop])]
/-- scheduler.go:294-328 `Schedule` -/
def Schedule : P := all [W .sched, opt (all [schedule, W .sched])]
/-- local.go:348-376 `scheduled` -/
def scheduled : P := all [cleanedUp, opt (R .lrc (all [qStats LQ, opt (all [qGet LQ, R .litem, R .ljob])]))]
/-- local.go:393-410 `cmdCountRemaining` -/
def cmdCountRemaining : P := all [qGet LQ, opt (all [R .litem, R .ljob, R .lrun])]
/-- local.go:415-497 `recover` -/
def lrecover : P := W .lrp (opt (W .lres))
/-- local.go:446-490: its goroutine -/
def recovered : P := opt (all [W .lres, processQueue])
/-- local.go:935-945 `busy` -/
def busy : P := all [cleanedUp, opt (R .lrc (qStats LQ))]
/-- local.go:1039-1053 `cleanup` -/
def cleanup : P := W .lmutex (W .lrun (all [stopAuto, W .lclean (qDestroy LQ)]))

/-! ## The server -/

/-- server.go:2838-2840 with scheduler.go:359-377; server.go:2842-2907 `scheduleRunners`; the goroutine is `scheduleAgain` -/
def scheduleRunners : P :=
  all [R .rac, opt (all [Schedule, opt (all [rep [qReserve SQ, R .item, W .job, qBury SQ], readyAdded SQ])])]
/-- server.go:2889-2903: the goroutine of `scheduleRunners`; 1567-1572: that of the ready callback -/
def scheduleAgain : P := W .group scheduleRunners
/-- server.go:1547-1553: the goroutine that unschedules a group; 273-283 `clone` -/
def unschedule : P := all [R .group, scheduleRunners]
/-- server.go:2911-2939 `decrementGroupCount`; 328-332 `hasSkips`, 299-325 `decrement`, 273-283 `clone` -/
def decrementGroup : P :=
  all [R .rac, opt (all [R .psg, opt (all [R .group, W .group, opt (all [R .group, scheduleRunners]), opt (readyAdded SQ)])])]
/-- server.go:2826-2836 `schedulerGroupDetails`; 286-290 `getCount` -/
def groupDetails : P := R .psg (.many (R .group))

/-- server.go:1290-1619: the ready callback; 1515-1576: with `psgmutex`; 1582-1617: with `racmutex` -/
def readyCallback : P :=
  all [R .ss, opt (all [W .rp, R .rac,
    rep [R .job, opt (W .job), getGroup, opt (all [setGroup, qSetReserveGroup SQ]), opt limOp],
    opt (all [W .psg (all [qRunningData SQ, rep [getGroup, opt (any [R .group, W .job])], .many (R .group)]), W .rac]),
    W .rp])]
/-- queue.go:276-308: the goroutine of `readyAdded` -/
def readyAddedRun : P :=
  all [R .queue (.many (R .item)), readyCallback, W .cb, opt (all [W .cb, readyAdded SQ])]
/-- server.go:1593-1613: the goroutine that looks again -/
def checkAgain : P := opt (all [W .rac (qStats SQ), opt (readyAdded SQ)])

/-- server.go:1623-1762: the changed callback, for jobs that nobody looks at on the status page, or that were not running -/
def changedCallback : P :=
  all [.many (R .job), .many (R .job), R .js, rep [R .job, opt (all [.many (R .job), R .job, R .ws])], opt (W .rp)]
/-- server.go:1731-1733, serverCLI.go:866-882: what the changed callback does with the queue's job if somebody looks at it on the
    status page and it was running: it gets the job's output from the database with the job's lock -/
def changedWatched : P :=
  all [.many (R .job), .many (R .job), R .js, rep [R .job, W .job dbStd, R .job, R .ws], opt (W .rp)]
/-- server.go:1764-1777: its goroutine -/
def pushUpdate : P := W .wsWrite

/-- server.go:1786-1836: the callback for items whose time is over -/
def ttrCallback : P := all [W .job, opt decrementLimits]

/-- server.go:2201-2264 `deleteJobs` -/
def deleteJobs : P :=
  rep [rep [qHasDependents SQ, opt (all [qRemove SQ, getGroup])], opt (all [dbDeleteLive, .many decrementGroup, W .rpl])]
/-- server.go:2077-2145 `releaseJob` -/
def releaseJob : P :=
  all [R .job, qGet SQ, opt (all [R .item, opt (any [qBury SQ, qRelease SQ]),
    opt (all [updateAfterExit, W .job, decrementGroup, dbAfterExit])])]
/-- server.go:2177-2195 `killJob` -/
def killJob : P := all [qGet SQ, R .item, opt (all [R .item, W .job, opt releaseJob])]
/-- server.go:1806-1823: the goroutine of `ttrCallback`, 2012-2040 `confirmJobDeadAndKill` with its goroutine, 2055-2073
    `confirmJobDeadAndKillAfterRetryTime` -/
def ttrRun : P :=
  any [all [killJob, opt (all [qGet SQ, R .item])], all [qGet SQ, R .item, opt (all [R .item, W .job])], releaseJob]

/-- serverCLI.go:866-882 `jobPopulateStdEnv`, of a copy -/
def populate : P := opt (W .copy (opt dbStd))
/-- serverCLI.go:797-862 `itemToJob` -/
def itemToJob : P := all [R .item, R .job (R .item), populate]
/-- server.go:2340-2382 `getJobsByKeys` -/
def getByKeys : P := all [rep [qGet SQ, opt itemToJob], .many populate, .many populate]
/-- server.go:2420-2438 `getJobsByRepGroup`; 2441-2530; 220-230 `Values`; 2615-2822 `limitJobs` -/
def getByGroup : P := all [rep [R .rpl, rep [qGet SQ, opt itemToJob]], .many (R .copy), .many populate]
/-- server.go:2535-2587 `getJobsCurrent` -/
def getCurrent : P := all [qAllItems SQ, .many itemToJob, .many (R .copy), .many populate]

/-- server.go:2276-2311 `killJobsOnServers` -/
def killOnServers : P := all [getCurrent, getCurrent, rep [killJob, opt (all [qGet SQ, R .item])]]
/-- server.go:889-946: what the scheduler calls for bad servers -/
def badServer : P := W .bs
/-- server.go:902-928: its goroutine -/
def autoConfirm : P := W .bs (opt killOnServers)
/-- server.go:2943-2951 `getBadServers` -/
def getBad : P := R .bs
/-- server.go:2969-3028 `killBadCloudServers`, 3033-3056 `killCloudServer` -/
def killBad : P := all [W .bs, killOnServers]
/-- server.go:949-966: what the scheduler calls with a message -/
def message : P := W .si

/-- server.go:1840-1861 `enqueueItems` -/
def enqueue : P := all [W .rp, qAddMany SQ, any [W .rp, W .rpl]]
/-- server.go:1967-1979 `storeLimitGroups` -/
def storeLimits : P := all [.many limOp, .many limOp]
/-- server.go:1985-2004 `updateJobDependencies` -/
def updateDeps : P := all [W .rp, rep [getGroup, qUpdate SQ]]
/-- server.go:1866-1940 `createJobs` -/
def createJobs : P :=
  all [R .rac, .many (W .job), storeLimits, dbStoreNewJobs, opt (all [.many getGroup, updateDeps, opt enqueue])]
/-- server.go:2314-2337 `kickJobs` -/
def kickJobs : P := rep [W .rp, qKick SQ, any [all [W .job, dbAfterChange], W .rp]]
/-- server.go:3060-3083 `getSetLimitGroup` -/
def setLimit : P := any [all [opt limOp, .many limOp, readyAdded SQ], limOp]

/-- server.go:1035-1040 `Block` -/
def block : P := W .ss
/-- server.go:1051-1084 `Drain` -/
def drain : P := W .ss
/-- server.go:1088-1103 `Pause` -/
def pause : P := W .ss
/-- server.go:1109-1131 `Resume` -/
def resume : P := W .ss (opt (readyAdded SQ))
/-- server.go:1135-1161 `GetServerStats` -/
def serverStats : P := all [qStats SQ, qRunningData SQ, .many (R .job)]
/-- server.go:3136-3282 `shutdown`; `HasRunners` is `busy` -/
def shutdown : P :=
  all [W .ss (opt (W .psg (rep [R .group, scheduleRunners]))),
    opt (all [W .kr, .many busy, cleanup, W .ws, dbClose, W .rp, qDestroy SQ, W .kr, W .ss])]
/-- server.go:1063-1084: the goroutine of `Drain` -/
def drainRun : P := all [.many (qStats SQ), shutdown]

/-- serverCLI.go:893-924 `reserveWithLimits` -/
def reserveWithLimits : P :=
  all [opt limIncrement, opt (all [qReserve SQ, opt (any [limOp, all [R .item, noteLimits]])])]
/-- serverCLI.go:189-272: "reserve" -/
def reserve : P :=
  all [W .rp, opt (R .psg (opt (R .group))), opt reserveWithLimits,
    opt (all [R .item, W .job, qSetDelay SQ, W .job, itemToJob])]
/-- serverCLI.go:753-770 `getij` -/
def getij : P := all [qGet SQ, opt (all [R .item, R .item])]
/-- serverCLI.go:273-304: "jstart" -/
def jstart : P := all [getij, opt (all [W .job, opt dbAfterChange])]
/-- serverCLI.go:305-344: "jtouch" -/
def jtouch : P := all [getij, opt (all [R .job, opt (R .kr), opt (all [qTouch SQ, opt (W .job)])])]
/-- serverCLI.go:345-392: "jarchive" -/
def jarchive : P :=
  all [getij, opt (all [updateAfterExit, W .job (R .item), opt (all [dbArchive, opt (all [qRemove SQ, opt (all [W .rpl, decrementGroup])])])])]
/-- serverCLI.go:393-423: "jrelease" and "jbury" -/
def jrelease : P := all [getij, opt releaseJob]
/-- serverCLI.go:424-443: "jkick" -/
def jkick : P := all [rep [qGet SQ, opt (all [R .item, R .item])], kickJobs]
/-- serverCLI.go:444-468: "jdel" -/
def jdel : P := all [rep [qGet SQ, opt (all [R .item, R .item])], deleteJobs]
/-- server.go:2386-2399 `checkJobByKey` -/
def checkJobByKey : P := qGet SQ
/-- serverCLI.go:469-607: "jmod" around `Modify`; `modify` is job.go:1257-1423 -/
def jmodWith (modify : P) : P :=
  all [pause, opt (all [rep [qGet SQ, opt (all [R .item, R .item])], modify,
    opt (all [opt storeLimits, W .rpl (.many (qChangeKey SQ)), opt dbModifyLive, rep [getGroup, qUpdate SQ]]), resume])]
/-- "jmod" if no key changes: job.go:1305-1307 -/
def jmod : P := jmodWith (.many (W .job))
/-- "jmod" if a key changes: job.go:1300-1311 looks for the new key in the queue with the job's lock -/
def jmodKeys : P := jmodWith (.many (W .job (opt checkJobByKey)))
/-- serverCLI.go:608-628: "jkill" -/
def jkill : P := .many killJob
/-- serverCLI.go:144-188: "add"; server.go:2149-2165 `inputToQueuedJobs` -/
def jadd : P := all [createJobs, opt (rep [qGet SQ, opt itemToJob])]

/-- serverCLI.go:40-749 `handleRequest` with one of these -/
def request (p : P) : P := all [R .ss, opt p]

/-- serverWebI.go:430-465 `setupUpdateListener` -/
def listener : P := rep [R .ws, opt (W .wsWrite)]
/-- serverWebI.go:469-508 `reqToJobs` -/
def reqToJobs : P := rep [opt (R .rpl), rep [qGet SQ, opt (all [R .item, R .item, W .job])]]
/-- serverWebI.go:252-299: "current" -/
def wsCurrent : P := all [getCurrent, W .wsWrite (all [.many (R .copy), getBad, R .si])]
/-- serverWebI.go:300-353: "details", 397-415: one job -/
def wsDetails : P := all [any [getByGroup, getByKeys], opt toStatus, opt (W .wsWrite (all [.many toStatus, opt (W .js)]))]
/-- serverWebI.go:354-395: the other requests -/
def wsOther : P := any [W .js, all [reqToJobs, kickJobs], all [reqToJobs, deleteJobs], all [reqToJobs, .many killJob], W .bs, W .si, W .si]
/-- serverWebI.go:221-418: the goroutine that reads requests of the status page -/
def wsRead : P := rep [R .ws, opt (any [wsCurrent, wsDetails, wsOther])]
/-- server.go:3095-3102 `storeWebSocketConnection`, 3108-3127 `closeWebSocketConnection`, 3286-3333: subscriptions -/
def wsOpen : P := all [W .ws, W .ws, W .js]
/-- serverREST.go:954-959 `restWarnings` -/
def restWarnings : P := W .si
/-- serverREST.go:990-1035 `restBadServers` -/
def restBad : P := any [getBad, W .bs]

/-- All calls and goroutines but those of `faulty`. -/
def safe : List P := [
  -- the queues
  qDelayProcessing SQ, qTTRProcessing SQ ttrCallback, readyAddedRun, qNotifyTimeout SQ, changedCallback,
  qDelayProcessing LQ, qTTRProcessing LQ .skip, qNotifyTimeout LQ,
  -- the database
  dbBackupRun, dbAfterExitRun, dbAfterChangeRun,
  -- the scheduler
  Schedule, scheduled, cmdCountRemaining, lrecover, recovered, busy, processQueue, ranCmd, cleanup,
  -- goroutines and methods of the server
  scheduleAgain, unschedule, checkAgain, pushUpdate, ttrRun, deleteJobs, badServer, autoConfirm, message, drainRun, groupDetails,
  block, drain, pause, resume, serverStats, dbBackup, shutdown,
  -- requests of clients: serverCLI.go:67-745
  request (R .ss), request dbBackup, request (all [pause, opt resume, serverStats]), request resume, request (all [drain, serverStats]),
  request jadd, request reserve, request jstart, request jtouch, request jarchive, request jrelease, request jkick, request jdel,
  request jmod, request jkill, request getByKeys, request getByGroup, request getCurrent, request (all [getBad, opt killBad]),
  request killBad, request setLimit, request limOp,
  -- the status page and REST
  wsRead, listener, wsOpen, restWarnings, restBad, jadd, getByKeys, getByGroup, getCurrent, all [getByKeys, jdel], all [getByKeys, jkill]]

/-- Those that break the order in which locks are taken, or keep one. -/
def faulty : List P := [changedWatched, request jmodKeys, scheduleLate]

def code : List P := safe ++ faulty

/-- In which order locks are taken. -/
def rank : Lk → Nat
  | .wsWrite => 0
  | .bs => 1
  | .ss => 2
  | .psg => 3
  | .group => 4
  | .rac => 5
  | .sched => 6
  | .lmutex => 6
  | .lrp => 6
  | .lrc => 7
  | .ljob => 8
  | .lrun => 9
  | .lap => 10
  | .lclean => 11
  | .lqueue => 12
  | .lsub => 13
  | .litem => 14
  | .lres => 15
  | .copy => 20
  | .rpl => 20
  | .db => 21
  | .queue => 22
  | .job => 30
  | .lim => 31
  | .sub => 32
  | .item => 33
  | .wg => 40
  | .cb => 40
  | .rp => 40
  | .si => 40
  | .kr => 40
  | .js => 40
  | .ws => 40

end Verif.Server.Locks
