{"id": "C01", "title": "Every queued item is in exactly one sub-queue, the one its State() reports", "statement": "After any sequence of Add/AddMany/Update/ChangeKey/SetDelay/SetReserveGroup/Reserve/Touch/Release/Bury/Kick/Remove calls and delay/TTR expirations, every item that Get() can find is in exactly one of the delay, ready, run, bury and dependent sub-queues, that sub-queue is the one named by item.State(), and no sub-queue holds anything else; hence Stats().Items is the sum of the five sub-queue counts.", "quantifier": "all histories of queue operations, all keys, priorities, groups, delays, TTRs and clock readings", "why_tests_cant": "a finite history of calls is one of infinitely many; an ordering of calls that corrupts a sub-queue shows up only later, when the damaged entry is used", "anchors": ["queue/queue.go: Add, AddMany, Update, ChangeKey, SetDelay, SetReserveGroup, Reserve, Touch, Release, Bury, Kick, Remove, Stats", "queue/subqueue.go: push, pop, remove, update", "queue/bury_queue.go", "queue/dependency_queue.go"]}
{"id": "C02", "title": "Reserve hands out the best ready item of the group", "statement": "Whenever Reserve(group, 0) returns an item, that item was ready in that group, and no other ready item of the group has a higher priority, or equal priority and larger size, or equal priority and size and an earlier creation time. Reserve fails with ErrNothingReady exactly when the group has no ready item.", "quantifier": "all reachable queue states, all groups", "why_tests_cant": "depends on the heap order surviving every earlier push, removal from the middle, and re-prioritisation", "anchors": ["queue/queue.go: Reserve, Update", "queue/subqueue.go: Less, pop, update"]}
{"id": "C03", "title": "An item is reserved by at most one caller at a time", "statement": "If two Reserve() calls return the same item, then between them the item left the run sub-queue (Release, TTR expiry, Bury then Kick, Update with dependencies, or Remove then Add).", "quantifier": "all interleavings of Reserve calls with every other operation (excluding histories that hit the Update defect recorded under C01, after which the sub-queues themselves are corrupt: Update with an empty dependency list on an item outside the dependent sub-queue that has outstanding dependencies)", "why_tests_cant": "double hand-out needs a particular interleaving", "anchors": ["queue/queue.go: Reserve, Release, Bury, Kick, startTTRProcessing"]}
{"id": "C04", "title": "An item with dependencies is not reservable until every dependency was removed", "statement": "An item added with dependencies D is not in the ready, delay, run or bury sub-queue, and is not returned by Reserve, until, for every key in D, an item with that key was Remove()d after the dependent was added (following renames of the awaited item by ChangeKey), unless Update() changes the item's dependencies meanwhile.", "quantifier": "all histories of queue operations, all dependency lists (including missing, duplicate and self keys) (excluding histories that hit the Update defect recorded under C01, after which the sub-queues themselves are corrupt: Update with an empty dependency list on an item outside the dependent sub-queue that has outstanding dependencies)", "why_tests_cant": "a finite history of calls is one of infinitely many; an ordering of calls that corrupts a sub-queue shows up only later, when the damaged entry is used", "anchors": ["queue/queue.go: Add, Remove, setItemDependencies, Kick", "queue/item.go: resolveDependency"]}
{"id": "C05", "title": "Removing the last outstanding dependency makes the dependent ready at once", "statement": "If an item in the dependent sub-queue has exactly one outstanding dependency k and Remove(k) succeeds, then when that call returns the item is in the ready sub-queue.", "quantifier": "all reachable queue states", "why_tests_cant": "a finite history of calls is one of infinitely many; an ordering of calls that corrupts a sub-queue shows up only later, when the damaged entry is used", "anchors": ["queue/queue.go: Remove, dependants, setQueueDeps, ChangeKey"]}
{"id": "C06", "title": "Adding an existing key changes nothing and AddMany counts correctly", "statement": "Add of a key already in the queue returns ErrAlreadyExists and leaves the queue unchanged. AddMany returns added+dups equal to the number of definitions, adds exactly the keys that were not present (the first definition for each key wins), and a second identical AddMany adds nothing.", "quantifier": "all queue states, all definition lists including ones with internal duplicates (excluding histories that hit the Update defect recorded under C01, after which the sub-queues themselves are corrupt: Update with an empty dependency list on an item outside the dependent sub-queue that has outstanding dependencies)", "why_tests_cant": "lists of any length with duplicates in any positions", "anchors": ["queue/queue.go: Add, AddMany, newItemForAdd"]}
{"id": "C07", "title": "Operations succeed exactly in their documented state and failures have no effect", "statement": "Touch, Release and Bury succeed iff the key is in the queue and its item is running; Kick iff it is buried; Remove, Update, SetDelay, SetReserveGroup iff the key is in the queue; ChangeKey iff the old key is in and the new key is not. Each failing call returns the documented error (ErrQueueClosed before ErrNotFound before the state error) and leaves the queue exactly as it was.", "quantifier": "all reachable queue states, all keys, every operation", "why_tests_cant": "the product of operations and states over all histories", "anchors": ["queue/queue.go: Touch, Release, Bury, Kick, Remove, Update, ChangeKey"]}
{"id": "C08", "title": "A delayed item becomes ready only when its delay has elapsed, and then all due items do", "statement": "Delay processing at time t moves to ready exactly those delayed items whose ready time is before t; none is moved early and none that is due is left.", "quantifier": "all reachable queue states, all times (excluding histories that hit the Update defect recorded under C01, after which the sub-queues themselves are corrupt: Update with an empty dependency list on an item outside the dependent sub-queue that has outstanding dependencies)", "why_tests_cant": "depends on the delay heap being ordered after arbitrary SetDelay/Update/Remove", "anchors": ["queue/queue.go: startDelayProcessing, SetDelay, Release", "queue/subqueue.go: Less"]}
{"id": "C09", "title": "A running item is timed out exactly when its TTR has passed without a Touch", "statement": "TTR processing at time t takes exactly the running items whose release time (last Touch or Reserve plus TTR) is before t, and moves each to the sub-queue chosen by the TTR callback (or leaves it running with its timeout pushed a year ahead when the callback says run). Items touched recently stay running.", "quantifier": "all reachable queue states, all times, all callback behaviours (excluding histories that hit the Update defect recorded under C01, after which the sub-queues themselves are corrupt: Update with an empty dependency list on an item outside the dependent sub-queue that has outstanding dependencies)", "why_tests_cant": "depends on the run heap being ordered after arbitrary Touch/Update/Remove", "anchors": ["queue/queue.go: startTTRProcessing, Touch", "queue/item.go: releasable, touch"]}
{"id": "C10", "title": "ChangeKey renames an item without losing it or its dependants", "statement": "After ChangeKey(old,new) succeeds, Get(new) is the item that Get(old) was, Get(old) fails, all other keys are unaffected, and every item that was waiting on old is now waiting on new, and nothing else changes.", "quantifier": "all reachable queue states, all key pairs", "why_tests_cant": "a finite history of calls is one of infinitely many; an ordering of calls that corrupts a sub-queue shows up only later, when the damaged entry is used", "anchors": ["queue/queue.go: ChangeKey", "queue/item.go: ChangedKey"]}
{"id": "C11", "title": "Update stores every value it was given", "statement": "After Update(key, group, data, priority, delay, ttr) succeeds, the item has that group, data, priority, delay and TTR, and is still correctly ordered in its sub-queue.", "quantifier": "all reachable queue states, all argument combinations", "why_tests_cant": "a test must change several fields at once in the right state to see a dropped one", "anchors": ["queue/queue.go: Update", "queue/subqueue.go: update"]}
{"id": "C12", "title": "The ready-added callback is never run concurrently and never misses ready items", "statement": "At any moment at most one ready-added callback is running; and after any item becomes ready there is always a callback run that starts later (it is running, or a recall is recorded and will start one).", "quantifier": "all interleavings of readyAdded calls with callback start, finish and recall steps", "why_tests_cant": "an interleaving property of goroutines", "anchors": ["queue/queue.go: readyAdded, TriggerReadyAddedCallback"]}
{"id": "C13", "title": "The priority sub-queues are correct indexed heaps", "statement": "Push, Pop, Remove(i) and Fix(i) as used by the sub-queues keep: the multiset of stored items (plus or minus the one item concerned), the heap order for any total preorder, and for each stored item the exact position recorded in the item; Remove(i) removes exactly the item at i; Pop returns a minimum; none of them indexes out of range.", "quantifier": "all arrays of any size, all orders, all positions", "why_tests_cant": "sizes are unbounded; index bookkeeping bugs surface only for particular shapes", "anchors": ["queue/subqueue.go: push, pop, remove, update, Swap, Push, Pop", "container/heap (Go standard library, modelled)"]}
{"id": "C14", "title": "A limit group's count never goes over its limit and Increment is all or nothing", "statement": "When Increment(groups) returns true, every counted group in the list was below its limit before and is at most its limit after; when it returns false no count changed. So with limits unchanged, the number of holders of a group never exceeds its limit.", "quantifier": "all histories of Increment, Decrement, SetLimit, RemoveLimit by any number of callers, all group lists", "why_tests_cant": "a violation needs a particular order of increments and decrements over overlapping lists", "anchors": ["limiter/limiter.go: Increment, checkGroups, incrementGroups, Decrement", "limiter/group.go: canIncrement, increment"]}
{"id": "C15", "title": "Decrement undoes one Increment and never frees a slot that is not held", "statement": "After a successful Increment(groups), Decrement(groups) restores the count of every group in the list; a count never becomes negative; unknown groups are ignored.", "quantifier": "all limiter states and group lists", "why_tests_cant": "count drift appears only over long histories", "anchors": ["limiter/limiter.go: Decrement", "limiter/group.go: decrement"]}
{"id": "C16", "title": "GetRemainingCapacity is exactly the number of further Increments that succeed", "statement": "If GetRemainingCapacity(groups) returns n >= 0 then exactly n consecutive Increment(groups) calls succeed and the next fails; if it returns -1 every Increment(groups) succeeds.", "quantifier": "all limiter states, all group lists", "why_tests_cant": "needs arbitrary counts, limits and overlaps", "anchors": ["limiter/limiter.go: GetRemainingCapacity, Increment", "limiter/group.go: capacity"]}
{"id": "C17", "title": "A time-window limit group is open exactly inside its window", "statement": "A group named 'a < time < b' admits an increment at second-of-day t exactly when t is strictly inside the window from a to b, which for a > b is the overnight window; before/after and datetime windows likewise.", "quantifier": "all windows and all times", "why_tests_cant": "86400^3 combinations and unbounded datetimes", "anchors": ["limiter/group.go: canIncrement, betweenTimesLimitParse"]}
{"id": "C18", "title": "Limit group names are parsed unambiguously", "statement": "'name:n' with n a decimal integer gives group 'name' with limit n; time-window names parse to the window they spell and keep the full name; names with no ':' that are no window are plain names with no limit; parsing the printed form of any group gives that group back.", "quantifier": "all strings", "why_tests_cant": "unbounded strings", "anchors": ["limiter/group.go: NameToGroupData, countLimitParse, beforeTimeLimitParse, betweenTimesLimitParse, timeToSecs"]}
{"id": "C19", "title": "Granted tokens never exceed the maximum", "statement": "At every moment the sum of the tokens of requests that have been granted and not yet returned is at most maxSimultaneous.", "quantifier": "all interleavings of Request, Release, Touch, timeouts, cancellations, Shutdown and processing steps", "why_tests_cant": "an interleaving property", "anchors": ["rp/protector.go: Request, process, Release, Shutdown, WaitUntilGranted"]}
{"id": "C20", "title": "Token requests are granted in the order they were made, each at most once", "statement": "The sequence of granted receipts is a subsequence of the sequence of requested receipts, in order, with cancelled ones left out; no receipt is granted twice; a receipt that was released, timed out or cancelled is never reported granted again.", "quantifier": "all interleavings of requests, releases, timeouts and cancellations", "why_tests_cant": "an interleaving property", "anchors": ["rp/protector.go: process, Granted, WaitUntilGranted", "rp/request.go: grant, release, finish"]}
{"id": "C21", "title": "Grants are spaced by at least the configured delay", "statement": "Two consecutive grants by a Protector are at least delayBetween apart.", "quantifier": "all interleavings and clock readings", "why_tests_cant": "timing depends on interleaving of process and reprocess goroutines", "anchors": ["rp/protector.go: process, reprocess, Request"]}
{"id": "C22", "title": "Pauses nest, drain is final", "statement": "After any sequence of Pause, Resume and Drain calls on an up server: jobs can be reserved iff the server is neither draining nor holding more Pause calls than Resume calls; Pause reports 'newly paused' exactly for the outermost one; Resume reports 'resumed' exactly when the last pause is undone; once Drain succeeded nothing un-drains it and Pause and Resume fail.", "quantifier": "all call sequences", "why_tests_cant": "unbounded nesting", "anchors": ["jobqueue/server.go: Drain, Pause, Resume", "jobqueue/serverCLI.go: reserve"]}
{"id": "C23", "title": "A failing job is run Retries+1 times and then buried", "statement": "A job whose every run fails is started exactly Retries+1 times before it is buried, if nobody kicks, kills or modifies it; releases of a job that was never started do not use up retries.", "quantifier": "all Retries values 0..255 and all interleavings of started and unstarted releases", "why_tests_cant": "retry counts up to 255 with arbitrary unstarted releases in between", "anchors": ["jobqueue/server.go: releaseJob, createJobs", "jobqueue/job.go: updateAfterExit", "jobqueue/serverCLI.go: jstart, jrelease"]}
{"id": "C24", "title": "Only the client that reserved a running job can change it", "statement": "jstart, jtouch, jarchive, jrelease and jbury requests for a job that is not in the queue, not running, or reserved by another client are rejected with ErrBadJob or ErrMustReserve and leave all state unchanged.", "quantifier": "all server states, all requests", "why_tests_cant": "needs arbitrary interleavings of several clients on the same job", "anchors": ["jobqueue/serverCLI.go: getij, handleRequest"]}
{"id": "C25", "title": "Every request without the right token is refused without effect", "statement": "A request other than ping whose token differs from the server's token gets ErrPermissionDenied and changes nothing; tokens match iff they are equal byte strings.", "quantifier": "all requests, all byte strings", "why_tests_cant": "all byte strings", "anchors": ["jobqueue/serverCLI.go: handleRequest", "jobqueue/utils.go: tokenMatches"]}
{"id": "C26", "title": "A job is archived only after it was run successfully, exactly once", "statement": "jarchive succeeds only for a running job with a recorded start and a zero exit code; afterwards the job is in the complete store and neither in the queue nor in the live store.", "quantifier": "all job states and end states", "why_tests_cant": "product of job fields", "anchors": ["jobqueue/serverCLI.go: jarchive", "jobqueue/db.go: archiveJob"]}
{"id": "C27", "title": "After a crash at any point every accepted job is either live or complete, never lost and never both", "statement": "For every crash point in any history of add, archive, delete and asynchronous update transactions, the jobs found after reopening the database are: every job whose add was acknowledged and that was not archived or deleted is live; every job whose archive was acknowledged is complete and not live (unless re-added).", "quantifier": "all histories of database transactions and all crash points between them", "why_tests_cant": "crash points are not reachable by unit tests", "anchors": ["jobqueue/db.go: storeNewJobs, archiveJob, deleteLiveJobs, recoverIncompleteJobs, updateJobAfterExit, updateJobAfterChange"]}
{"id": "C28", "title": "Delayed asynchronous writes never bring a finished job back", "statement": "An updateJobAfterExit or updateJobAfterChange write that is executed at any later time never re-creates a job in the live store that was archived or deleted meanwhile.", "quantifier": "all delays of asynchronous writes relative to archive and delete", "why_tests_cant": "needs a particular interleaving with a background goroutine", "anchors": ["jobqueue/db.go: updateJobAfterExit, updateJobAfterChange"]}
{"id": "C29", "title": "Recovery puts jobs back where they were", "statement": "On restart, jobs recorded running are placed in the run sub-queue, buried jobs in bury, jobs with incomplete dependencies in dependent, and all others ready.", "quantifier": "all database contents", "why_tests_cant": "all combinations of stored states and dependency graphs", "anchors": ["jobqueue/server.go: Serve", "queue/queue.go: AddMany"]}
{"id": "C30", "title": "Deleting jobs never deletes a running job or strands a dependent", "statement": "jdel deletes exactly the requested jobs that are not running and all of whose dependents are deleted too, whatever the order of the keys.", "quantifier": "all dependency graphs and request orders", "why_tests_cant": "all graphs", "anchors": ["jobqueue/server.go: deleteJobs", "queue/queue.go: HasDependents"]}
{"id": "C31", "title": "Filtering and limiting of job listings is exact", "statement": "With a limit n > 0, the result holds for each (state, exit code, fail reason) group at most n jobs, in the original order, after skipping offset; Similar on the last of a group is the number of further jobs of the group; with a state filter only jobs of that state appear and none is missed.", "quantifier": "all job lists, limits, offsets and filters", "why_tests_cant": "unbounded lists", "anchors": ["jobqueue/server.go: limitJobs, filterAndGroupJobs, groupAndLimitJobs, addJobToGroup, matchesStateFilter"]}
{"id": "C32", "title": "Scheduler group bookkeeping never counts jobs it does not have", "statement": "Decrementing a scheduler group by d removes skipped jobs first, never goes below zero, and reports a new count iff the count changed; total (count+skipped) drops by min(d, total).", "quantifier": "all counts, skips and drops", "why_tests_cant": "unbounded counters", "anchors": ["jobqueue/server.go: sgroup.decrement, decrementGroupCount"]}
{"id": "C33", "title": "A reserved job holds one slot of each of its limit groups until it ends", "statement": "From the moment reserveWithLimits hands out a job until it is archived, released, buried, lost-confirmed or deleted, each of its limit groups has exactly one slot counted for it, and the slot is freed exactly once.", "quantifier": "all job life cycles", "why_tests_cant": "leaks show up only over life-cycle combinations (kill, lost, TTR, release)", "anchors": ["jobqueue/serverCLI.go: reserveWithLimits", "jobqueue/job.go: noteIncrementedLimitGroups, decrementLimitGroups, updateAfterExit"]}
{"id": "C34", "title": "Scheduler group names carry their limit groups", "statement": "schedGroupToLimitGroups(generateSchedulerGroup(job)) returns exactly the job's limit groups.", "quantifier": "all requirement strings and limit group lists", "why_tests_cant": "all strings", "anchors": ["jobqueue/job.go: generateSchedulerGroup", "jobqueue/serverCLI.go: schedGroupToLimitGroups"]}
{"id": "C35", "title": "Different jobs have different keys", "statement": "Two jobs whose command, working directory (when it matters), mounts or container differ are given different keys (up to hash collisions).", "quantifier": "all pairs of jobs", "why_tests_cant": "all strings", "anchors": ["jobqueue/job.go: Job.Key, JobEssence.Key", "jobqueue/mount.go: MountConfigs.Key"]}
{"id": "C36", "title": "Bulk database writes store every record exactly once", "statement": "storeBatched with any number of records writes every record exactly once, whatever the batch arithmetic.", "quantifier": "all record lists of any length", "why_tests_cant": "batch arithmetic at unbounded sizes", "anchors": ["jobqueue/db.go: storeBatched"]}
{"id": "C37", "title": "Stored output keeps the exact head and tail", "statement": "prefixSuffixSaver with size N, given any sequence of writes, yields the concatenated input itself if it is at most 2N bytes, and otherwise its first N bytes, a note with the number of omitted bytes, and its last N bytes.", "quantifier": "all byte sequences, all splits into writes, all N ≥ 1", "why_tests_cant": "ring buffer arithmetic over all splits", "anchors": ["jobqueue/utils.go: prefixSuffixSaver.Write, fill, Bytes"]}
{"id": "C38", "title": "Progress-bar filtering only drops carriage-return progress", "statement": "stdFilter passes lines without carriage returns through unchanged and, for blocks of \\r-terminated text, keeps the first and last piece; no other text is lost.", "quantifier": "all byte streams", "why_tests_cant": "all byte streams", "anchors": ["jobqueue/utils.go: stdFilter"]}
{"id": "C39", "title": "Environment overrides win and nothing else changes", "statement": "envOverride(orig, over) gives each overridden variable its override value, leaves all other variables as they were, and adds overridden variables that were missing.", "quantifier": "all environment lists", "why_tests_cant": "duplicates, missing '=' and multi-'=' values", "anchors": ["jobqueue/utils.go: envOverride", "jobqueue/job.go: Env, Getenv"]}
{"id": "C40", "title": "Scheduler requests are never smaller than the job needs", "statement": "reqForScheduler returns requirements with at least the RAM, time, cores and disk of the input, time a whole number of half hours when rounded, and leaves the input unchanged.", "quantifier": "all requirements whose time is not within half an hour of the largest or smallest 64-bit duration", "why_tests_cant": "all values", "anchors": ["jobqueue/utils.go: reqForScheduler"]}
{"id": "C41", "title": "Release delay backs off and is bounded", "statement": "The delay applied to a released job is within [min, max], and does not decrease with the number of attempts up to jitter.", "quantifier": "all attempt counts", "why_tests_cant": "all attempt counts and jitter values", "anchors": ["jobqueue/utils.go: calculateItemDelay", "jobqueue/serverCLI.go: setItemDelay"]}
{"id": "C42", "title": "The last Schedule() count wins", "statement": "After any sequence of concurrent Schedule(cmd, count) calls has settled, the count in force at the scheduler is that of the last call made.", "quantifier": "all interleavings of Schedule calls for one command", "why_tests_cant": "an interleaving property", "anchors": ["jobqueue/scheduler/scheduler.go: Schedule"]}
{"id": "C43", "title": "The local scheduler never over-commits RAM or cores", "statement": "The RAM and cores of commands started by processQueue and still running never exceed the configured maxima, and zero-core commands never exceed their cap.", "quantifier": "all histories of schedule, start and finish", "why_tests_cant": "all mixes of requirements", "anchors": ["jobqueue/scheduler/local.go: canCount, processQueue, runCmd, reqCheck"]}
{"id": "C44", "title": "The local scheduler runs a command exactly as often as asked", "statement": "After schedule(cmd, n) and if every run succeeds, the command is run n times in total and then forgotten; re-scheduling with a new count, higher or lower or zero then non-zero, adjusts the remaining runs accordingly.", "quantifier": "all histories of schedule and finish events", "why_tests_cant": "interleavings of re-scheduling with running commands", "anchors": ["jobqueue/scheduler/local.go: schedule, processQueue, removeKey, cmdCountRemaining"]}
{"id": "C45", "title": "A cloud server is never allocated beyond its flavor", "statement": "In any history of Allocate and matching Release calls, allocated cores, RAM and disk never exceed the flavor, and zero-core commands never exceed their cap; HasSpaceFor returns n iff exactly n further identical Allocate calls succeed; Release undoes Allocate.", "quantifier": "all histories, all flavors and requests", "why_tests_cant": "all mixes of sizes", "anchors": ["cloud/server.go: Allocate, Release, HasSpaceFor, checkSpace"]}
{"id": "C46", "title": "A cloud server is not destroyed while it is in use", "statement": "A server put on death row is destroyed only if nothing has been allocated on it since.", "quantifier": "all interleavings of Allocate, Release and the death-row timer", "why_tests_cant": "an interleaving property", "anchors": ["cloud/server.go: Allocate, Release, Destroy"]}
{"id": "C47", "title": "Behaviours run in the documented order for the exit status", "statement": "Triggering with success runs every on-success behaviour in order, then every on-exit one in order (likewise on-failure), each behaviour once; a behaviour survives the trip to its JSON form and back.", "quantifier": "all behaviour lists", "why_tests_cant": "all lists", "anchors": ["jobqueue/behaviours.go: Behaviours.Trigger, Behaviour.fillBVJM, BehaviourViaJSON.Behaviour"]}
{"id": "C48", "title": "Rewriting LSF resource strings preserves their meaning", "statement": "Printing a parsed -R string and parsing it again gives the same structure; ReplaceMemoryAndHosts changes only mem in select/rusage and hosts in span.", "quantifier": "all resource strings", "why_tests_cant": "unbounded grammar", "anchors": ["bsubresource: ParseBsubR, Requirements.String, ReplaceMemoryAndHosts"]}
{"id": "C49", "title": "An LSF queue is chosen that can run the job", "statement": "determineQueue returns the first queue in preference order that is not avoided and has enough memory and run time, or the user's explicit queue, or an 'impossible' error exactly when there is none.", "quantifier": "all queue tables and requirements", "why_tests_cant": "all tables", "anchors": ["jobqueue/scheduler/lsf.go: determineQueue, queueShouldBeAvoided, queueHasTooLittleMemory, queueHasTooLittleTime"]}
{"id": "C50", "title": "The cheapest sufficient flavor is chosen", "statement": "CheapestServerFlavor returns a flavor with enough cores and RAM whose (cores, RAM, disk) is minimal among all matching sufficient flavors, whatever the iteration order; error iff there is none. CheapestServerFlavors does so per set.", "quantifier": "all flavor maps in any iteration order", "why_tests_cant": "map iteration order is random", "anchors": ["cloud/cloud.go: pickCheapestFlavorFromSubset, CheapestServerFlavors"]}
{"id": "C51", "title": "Spawning never exceeds quota", "statement": "checkQuota returns n such that n servers of the returned flavor fit in the remaining instance, RAM, core and volume quota and the configured maximum.", "quantifier": "all quotas, reservations, flavors and requirements", "why_tests_cant": "all values", "anchors": ["jobqueue/scheduler/openstack.go: checkQuota, reqForSpawn"]}
{"id": "C52", "title": "Execute reports success only for jobs it archived", "statement": "The end action chosen after a command ends: archive iff it exited 0, bury iff killed by request or exit code 126/127/128 or past its no-retry time, release otherwise; and Execute returns nil error only if the job was archived.", "quantifier": "all combinations of exit status, resource, signal, kill and upload outcomes", "why_tests_cant": "product of conditions, many not reproducible", "anchors": ["jobqueue/client.go: Execute"]}
{"id": "C53", "title": "Job JSON is converted with defaults applied field by field", "statement": "JobViaJSON.Convert uses the supplied value where given, else the default, and rejects an empty command or out-of-range override, priority or retries; the resulting bytes equal the numbers given.", "quantifier": "all JSON inputs and defaults", "why_tests_cant": "product of fields", "anchors": ["jobqueue/serverREST.go: JobViaJSON.Convert"]}
{"id": "C54", "title": "The change callback is told exactly what happened", "statement": "For every queue operation, the change-callback events account exactly for where each item was before the operation and where it is after it (each reported move from a sub-queue to another is real, none is missing), and no event names an item twice.", "quantifier": "all histories of queue operations and timer expirations (excluding histories that hit the Update defect recorded under C01, after which the sub-queues themselves are corrupt: Update with an empty dependency list on an item outside the dependent sub-queue that has outstanding dependencies)", "why_tests_cant": "event streams over all interleavings of operations; observers (the web status counts) drift if any path omits or repeats an event", "anchors": ["queue/queue.go: Queue.changed, SetChangedCallback and every operation that calls it"]}
{"id": "C55", "title": "The limit set for a group is the limit in force", "statement": "After any history of limits set with 'wr limit' or by adding jobs with 'name:n' groups, of slots taken and given back, and of manager restarts, the limit in force for a group is the last one set for it, and -1 makes the group unlimited.", "quantifier": "all histories of setting limits, taking and giving back slots, and restarts", "why_tests_cant": "the database and the in-memory groups are updated by different paths and reloaded lazily", "anchors": ["jobqueue/db.go: storeLimitGroups, retrieveLimitGroup", "jobqueue/server.go: storeLimitGroups, getSetLimitGroup", "limiter/limiter.go: SetLimit, RemoveLimit, vivifyGroup"]}
{"id": "C56", "title": "A token request that waits is never forgotten", "statement": "While a request to a Protector is pending, some goroutine is on its way to look at the pending requests or tokens are in use whose return starts one; so the oldest pending request can always be granted by the passing of time alone.", "quantifier": "all interleavings of calls and of the Protector's goroutines", "why_tests_cant": "needs every interleaving of process, reprocess, timeouts and releases; a lost wake-up shows only in rare schedules", "anchors": ["rp/protector.go: Request, process, reprocess, WaitUntilGranted"]}
{"id": "C57", "title": "No sequence of calls blocks a Protector for ever", "statement": "After any sequence of Request, WaitUntilGranted (with and without timeout), Touch, Release and Shutdown calls, further calls still return.", "quantifier": "all histories of calls and timeouts", "why_tests_cant": "a deadlock needs a particular combination of calls and timeouts", "anchors": ["rp/protector.go: WaitUntilGranted", "rp/request.go: touch, waitUntilGranted"]}
{"id": "C58", "title": "Granted tokens come back if their user dies", "statement": "Tokens granted are taken back only if the receipt was released or not touched for releaseTimeout, and then they are always taken back.", "quantifier": "all interleavings of Touch, Release and the release timeout", "why_tests_cant": "depends on the interleaving of Touch with the timeout", "anchors": ["rp/protector.go: process", "rp/request.go: touch, finish"]}
{"id": "C59", "title": "A pause requested by a user lasts until a resume", "statement": "After a successful pause request the server stays paused until a resume request, and after a resume it is not paused, whatever other requests (such as job modifications, which pause the server themselves) come in between.", "quantifier": "all interleavings of pause, resume and jmod requests", "why_tests_cant": "overlapping requests; jmod pauses and resumes the server internally", "anchors": ["jobqueue/serverCLI.go: handleRequest 'pause', 'resume', 'jmod'", "jobqueue/server.go: Pause, Resume"]}
{"id": "C60", "title": "No job is handed out while the server is paused or draining", "statement": "Between the successful answer to a pause (or drain) request and the next resume, no reserve request is answered with a job.", "quantifier": "all interleavings of the steps of reserve, pause and resume requests", "why_tests_cant": "a reserve request in flight when the pause arrives", "anchors": ["jobqueue/serverCLI.go: handleRequest 'reserve', 'pause'", "jobqueue/server.go: Pause, Drain"]}
{"id": "C61", "title": "A kill affects exactly the run it was requested for", "statement": "Once a kill request for a running job was accepted, the next touch by the client running it says so, and a client whose run was not the target of a kill is never told to kill its job.", "quantifier": "all histories of requests and time-outs", "why_tests_cant": "the flag is set and cleared by different requests, which may come in any order and concern successive runs", "anchors": ["jobqueue/serverCLI.go: handleRequest 'jkill', 'jtouch', 'jstart', 'reserve'", "jobqueue/server.go: killJob"]}
{"id": "C62", "title": "The scheduler ends up with the number of runners a group needs", "statement": "After any history of requests that raise or lower the number of runners wanted for a scheduler group, and once all of them have returned, the number last told to the job scheduler for the group is the number the group needs.", "quantifier": "all histories and interleavings of the requests", "why_tests_cant": "the number is changed under a lock but the scheduler is told outside it", "anchors": ["jobqueue/server.go: decrementGroupCount, scheduleRunners, sgroup.decrement"]}
{"id": "C63", "title": "Jobs share a scheduler group only if their requirements and limit groups are the same", "statement": "Two jobs have the same scheduler group string only if the resource requirements the scheduler is given and the lists of limit groups are the same.", "quantifier": "all requirements and limit group lists", "why_tests_cant": "unbounded strings; injectivity of an encoding", "anchors": ["jobqueue/job.go: generateSchedulerGroup", "jobqueue/scheduler/scheduler.go: Requirements.Stringify"]}
{"id": "C64", "title": "The limit groups of an added job are the names given", "statement": "After adding a job with a list of limit groups, its limit groups are the names given, without their limits, each once and sorted, whatever the order in which they were given; and for every name the limit stored is the last one given for it.", "quantifier": "all lists of limit group strings", "why_tests_cant": "all lists, orders and repetitions", "anchors": ["jobqueue/server.go: handleUserSpecifiedJobLimitGroups", "internal/utils.go: DedupSortStrings"]}
{"id": "C65", "title": "A job essence names the job it describes", "statement": "The key of a JobEssence with the command, working directory and mounts of a job is the key of that job.", "quantifier": "all jobs", "why_tests_cant": "two independent implementations of the key", "anchors": ["jobqueue/job.go: JobEssence.Key, Job.Key"]}
{"id": "C66", "title": "The order in which mounts are given does not change the job", "statement": "Two jobs differing only in the order of their mount configurations have the same key; the documented defaults for a mount point do not change it either; jobs with different mounts have different keys.", "quantifier": "all lists of mount configurations and permutations of them", "why_tests_cant": "all permutations", "anchors": ["jobqueue/mount.go: MountConfigs.Key"]}
{"id": "C67", "title": "Getenv returns the value of the variable in the job's environment", "statement": "Job.Getenv(name) gives what os.Getenv(name) would give in a process started with the job's environment, and the empty string for a missing name; it does not panic.", "quantifier": "all environment lists and names", "why_tests_cant": "values with '=' and entries without it", "anchors": ["jobqueue/job.go: Getenv"]}
{"id": "C68", "title": "The state recorded for a job is the state it is in", "statement": "Once the scheduled database writes have been carried out, the state recorded for a live job is the state it has in the queue, so that a crash and a restart put it back into that state.", "quantifier": "all interleavings of add, start, end-of-run, kick, archive and delete requests with the delayed writes, and all crash points", "why_tests_cant": "the writes are carried out by goroutines in any order, and requests for the same job may come in between", "anchors": ["jobqueue/db.go: updateJobAfterChange, updateJobAfterExit, storeNewJobs, recoverIncompleteJobs", "jobqueue/server.go: Serve"]}
{"id": "C69", "title": "A cloud server that became idle is destroyed in the end", "statement": "When a cloud server with a time to destroy had its last allocation released, and nothing more is allocated, then once all that the server's goroutines can do has been done, the server is destroyed.", "quantifier": "all interleavings of allocations, releases, countdowns and cancellations", "why_tests_cant": "the countdown, its cancellation and the calls run concurrently", "anchors": ["cloud/server.go: Release, Allocate, Destroy"]}
{"id": "C70", "title": "The behaviours triggered are those for the end that the server recorded", "statement": "When Execute returns, the on-success behaviours were triggered if and only if the server archived the job, and the on-failure ones if and only if it did not; each kind at most once.", "quantifier": "all combinations of exit status, resource, signal, kill, close and upload outcomes, and all patterns of lost requests and answers", "why_tests_cant": "lost answers and failing clean-up steps cannot be enumerated by tests", "anchors": ["jobqueue/client.go: Execute"]}
{"id": "C71", "title": "Servers stay within the quota and the configured maximum over all histories", "statement": "Whatever the order in which servers are spawned, come up, fail and are destroyed, the servers that exist never use more than the quota of instances, RAM, cores and volumes that the cloud reports, and there are never more of them than the configured maximum.", "quantifier": "all interleavings of calls that spawn servers, the goroutines and callbacks of each spawn, state updates and destructions", "why_tests_cant": "the interleavings of background spawns with real quotas cannot be enumerated", "anchors": ["jobqueue/scheduler/openstack.go: spawnMultiple, checkQuota, spawn, stateUpdate", "cloud/openstack.go: spawn"]}
{"id": "C72", "title": "A request is refused as impossible exactly if it can never be met", "statement": "Scheduling a command on OpenStack is accepted if and only if its requirements, including those of the operating system, are within the maximum quota and there is a flavor for them; otherwise, unless the user named an unknown flavor, the error says that it is impossible, so that the server buries the jobs.", "quantifier": "all requirements, quotas, configurations and flavors", "why_tests_cant": "all values", "anchors": ["jobqueue/scheduler/openstack.go: reqCheck, reqForSpawn, determineFlavor", "jobqueue/server.go: scheduleRunners"]}
{"id": "C73", "title": "No more servers are spawned at once than configured or needed", "statement": "With a configured number of simultaneous spawns there are never more spawns going on than that; and no more are started for a command than its desired number of runs takes.", "quantifier": "all interleavings and all numbers", "why_tests_cant": "schedules of background spawns", "anchors": ["jobqueue/scheduler/openstack.go: spawnMultiple, spawn"]}
{"id": "C74", "title": "Reservations of quota are given back", "statement": "When no spawn is going on any more, no quota is reserved.", "quantifier": "all interleavings and outcomes of spawns", "why_tests_cant": "failures at every point of a spawn", "anchors": ["jobqueue/scheduler/openstack.go: spawn", "cloud/cloud.go: Spawn", "cloud/openstack.go: spawn"]}
{"id": "C75", "title": "Failed flavors are avoided, set by set", "statement": "The flavor used is the cheapest of the earliest flavor set whose cheapest one has not recently failed for lack of hardware; if all have, that of the earliest set that has one; the choice stays the same for one pass of the queue.", "quantifier": "all sets and all combinations of failed flavors", "why_tests_cant": "all combinations", "anchors": ["jobqueue/scheduler/openstack.go: determineFlavor"]}
{"id": "C76", "title": "Lowering the number of runs on LSF never kills a running job", "statement": "Scheduling a command at some count on LSF kills only waiting jobs of that command, and leaves, with those that it submits, as many jobs as asked for, or as many as are running if those are more; Scheduled tells how many there are.", "quantifier": "all job listings, in any order, of any mixture of array elements and single jobs, and all counts", "why_tests_cant": "all listings", "anchors": ["jobqueue/scheduler/lsf.go: schedule, checkCmd, parseBjobs, scheduled"]}
{"id": "C77", "title": "The order of preference of LSF queues is determined by their attributes", "statement": "The order in which LSF queues are tried lists each queue that the user may use exactly once, does not depend on the order in which maps are iterated, and puts a queue that is at least as good as another in every criterion, and better in one, before it.", "quantifier": "all sets of queues, all attributes and all iteration orders", "why_tests_cant": "the iteration order of maps is random", "anchors": ["jobqueue/scheduler/lsf.go: initialize", "internal/utils.go: SortMapKeysByMapIntValue, SortMapKeysByIntValue"]}
{"id": "C78", "title": "User options for bsub are passed on as given", "statement": "The bsub options a user gives reach bsub in the order given and unchanged, except that memory and hosts in every resource string are those of the job; they come after the scheduler's own options and before the command. Options that bsub would understand are never dropped, and no option string makes the manager or the client crash.", "quantifier": "all option strings and all jobs", "why_tests_cant": "all option strings", "anchors": ["jobqueue/scheduler/lsf.go: generateBsubArgs, parseUserArgs"]}
{"id": "C79", "title": "Validation of bsub options gives LSF's answer", "statement": "Each call of Validate returns true exactly if bsub accepts the options together with the queue given in that call.", "quantifier": "all sequences of calls with all options and queues", "why_tests_cant": "sequences of calls with a cache", "anchors": ["jobqueue/scheduler/lsf.go: BsubValidator.Validate", "cmd/add.go"]}
{"id": "C80", "title": "Learned requirements cover 95% of past runs", "statement": "The memory, disk and time recommended for a requirement group are 0 if nothing was recorded for it; otherwise they are rounded up multiples that at least 95% of the recorded runs of that group stayed within, all of them if there are too few for a percentile, and less than the largest recorded value plus the rounding amount.", "quantifier": "all histories of recorded runs of any groups", "why_tests_cant": "all sets of values and group names", "anchors": ["jobqueue/db.go: recommendedReqGroupStat, updateJobAfterExit, archiveJob"]}
{"id": "C81", "title": "What a failed run lacked is given to all later runs", "statement": "With override 2 a job asks for exactly what its user gave; with 1 for at least that and at least what was learned; with 0 for what was learned. With 0 or 1, after a run that ended for want of memory, disk or time every later attempt asks for more of it than that run used. Applying what was learned never crashes the server.", "quantifier": "all histories of failed attempts and recommendations", "why_tests_cant": "all histories", "anchors": ["jobqueue/server.go: createQueue (ready-added callback)"]}
{"id": "C82", "title": "Jobs are found by their report group", "statement": "A search by report group lists every incomplete job that has it, and every complete job that was last stored with it, each once; it lists nothing that was never added, or changed to be, in that group. A complete job is also listed for other groups that it was added with before.", "quantifier": "all histories of additions, completions, deletions, modifications and restarts", "why_tests_cant": "all histories of requests", "anchors": ["jobqueue/db.go: storeNewJobs, prepareNewJobs, modifyLiveJobs, retrieveCompleteJobsByRepGroup", "jobqueue/server.go: getJobsByRepGroup, rgToKeys"]}
{"id": "C83", "title": "A new job brings back the complete jobs that depend on its groups", "statement": "When jobs are added that are in dependency groups, exactly the complete jobs that depend on one of these groups, on a group of such a job, and so on, are put in the queue again; jobs that depend on a group wait for all incomplete jobs that are in it, and for no others. The search for them always ends.", "quantifier": "all histories, and all graphs of groups, also with cycles", "why_tests_cant": "all graphs and histories", "anchors": ["jobqueue/db.go: retrieveDependentJobs, retrieveIncompleteJobKeysByDepGroup, prepareNewJobs"]}
{"id": "C84", "title": "Jobs that are there already are left out on request", "statement": "If jobs are added with the option to leave out those that were added before, a job that is incomplete or complete already is not queued again and keeps its stored record.", "quantifier": "all histories and all requests to add", "why_tests_cant": "all histories and combinations of jobs in a request", "anchors": ["jobqueue/db.go: prepareNewJobs, checkIfAdded, storeNewJobs", "jobqueue/server.go: createJobs"]}
{"id": "C85", "title": "A restart finds exactly the jobs that were in the queue", "statement": "At any time, a restart of the server puts exactly those jobs in its queue that were in it; and a request to add jobs never fails because of what is stored.", "quantifier": "all histories of additions, completions, deletions, modifications and restarts", "why_tests_cant": "all histories of requests", "anchors": ["jobqueue/db.go: storeNewJobs, archiveJob, deleteLiveJobs, modifyLiveJobs, recoverIncompleteJobs", "jobqueue/server.go: createJobs, updateJobDependencies"]}
{"id": "C86", "title": "A client that asks for a job is not kept waiting for ever", "statement": "A client that asks for a job while jobs are being added or changed waits until these have been assigned to their scheduler groups, and is then answered; it never waits for ever, nor longer because of a pause of the server.", "quantifier": "all interleavings of requests, callbacks of the queue, and pauses", "why_tests_cant": "interleavings", "anchors": ["jobqueue/serverCLI.go: handleRequest (reserve)", "jobqueue/server.go: createQueue, enqueueItems, updateJobDependencies, kickJobs, Pause, Resume"]}
{"id": "C87", "title": "A modification changes what was asked for and nothing else", "statement": "When jobs are modified, each of them is afterwards in the queue as it was, or has exactly those properties changed that were given. It is changed if that makes it like no other job that is or was there, or is modified by the same request; never do two jobs become one. For a trigger for which behaviours are given, a job then has exactly these behaviours; a new number of retries counts from then on.", "quantifier": "all jobs, all modifications of any number of jobs at once, and all states of the queue", "why_tests_cant": "all combinations of fields and jobs", "anchors": ["jobqueue/job.go: JobModifier.Modify", "jobqueue/serverCLI.go: handleRequest (jmod)", "jobqueue/db.go: modifyLiveJobs"]}
{"id": "C88", "title": "Cleaning up a job removes only what was made for it", "statement": "The cleanup behaviour always ends. It removes all of the unique directory that was made for the job, except for directories that are mounted in it and their caches, and the directories between it and the job's working directory if they are empty; it removes nothing else: no file of the user, no directory of another job, nor the working directory itself.", "quantifier": "all contents of the file system, all jobs and their mounts", "why_tests_cant": "all file trees", "anchors": ["jobqueue/behaviours.go: Behaviour.cleanup", "jobqueue/utils.go: mkHashedDir, rmEmptyDirs, removeAllExcept, removeWithExceptions", "jobqueue/client.go: Execute", "jobqueue/job.go: JobModifier.Modify"]}
{"id": "C89", "title": "The backup of the database is whole, never goes back and catches up", "statement": "At every moment, also when the process dies, the backup file is absent or a whole copy of a state the database had; it is never replaced by an earlier one and never written by two threads at once. Every change gets into the backup, at the latest when the manager is stopped. Backups are spaced out by 30 seconds or the time the last one took. A development manager makes none.", "quantifier": "all interleavings of changes, backup threads, failures of file operations, stops and crashes", "why_tests_cant": "interleavings and crash points", "anchors": ["jobqueue/db.go: backgroundBackup, backupToBackupFile, close, updateJobAfterExit, updateJobAfterChange, modifyLiveJobs, archiveJob, deleteLiveJobs, storeNewJobs"]}
{"id": "C90", "title": "Starting the manager never loses the database", "statement": "A production manager starts with its database if that can be opened, else with the backup, and with an empty database only if there is neither. No start changes the backup, and if a start dies or fails at any point, a later one finds the same database. If nothing can be opened the files are left alone. A development manager starts empty.", "quantifier": "all states of the two files, all failures and crash points, any number of starts", "why_tests_cant": "crash points", "anchors": ["jobqueue/db.go: initDB", "jobqueue/utils.go: copyFile"]}
{"id": "C91", "title": "A command runs with the environment its submitter meant", "statement": "Whatever a runner executed before, each variable of a command has the value of the runner's own overrides (manager host, port, domain; TMPDIR and HOME in a unique directory; the LSF emulation's in bsub mode), else the job's override, else what was recorded when the job was added, or the runner's environment if nothing was. PATH is the job's own with the directory of wr added if it lacks it. Overrides reach containers unchanged.", "quantifier": "all environments, overrides, sequences of jobs a runner executes, and orders of Go's maps", "why_tests_cant": "all histories of a runner and all texts", "anchors": ["jobqueue/job.go: Env, EnvAddOverride, containerEnv, containerMounts", "jobqueue/client.go: Execute", "cmd/runner.go: runnerCmd", "jobqueue/utils.go: envOverride"]}
{"id": "C92", "title": "Configuration: precedence, sources, ports, files, and handing over", "statement": "A setting has the value of its environment variable, else of the file in the current directory, else in the home directory, else in $WR_CONFIG_DIR (there the file of the deployment before the common one), else the default; the source that is reported sets that value. Relative files are in the manager's directory of the deployment. Ports that are not set are distinct for every user, deployment and interface; those that are set are used. The manager in the background has the settings of the process that started it. A umask is taken as octal everywhere.", "quantifier": "all settings, environments and sets of files", "why_tests_cant": "all combinations of sources", "anchors": ["internal/config.go: mergeAllConfigs, mergeDefaultAndEnvVarsConfigs, merge, mergeAllConfigFiles, configLoadFromFile, adjustConfigProperties, setManagerPort, calculatePort, getMinPort, fixEnvManagerUmask, ToEnv, DefaultDeployment", "jobqueue/scheduler/openstack.go: runCmd"]}
{"id": "C93", "title": "State counts on status pages agree with the jobs", "statement": "The number of jobs in a state that a status page shows, by adding up the snapshot it gets when it opens and every change it is sent afterwards, is the number of jobs that a listing gives for this state, for every report group and for all jobs together, at every time; it never is below nought, and the number for all jobs is the sum over the report groups.", "quantifier": "all histories of additions, reservations, starts, touches, losses, releases, removals and modifications of any number of jobs", "why_tests_cant": "all histories", "anchors": ["jobqueue/server.go: createQueue (changed and TTR callbacks)", "jobqueue/serverCLI.go: handleRequest (jtouch, jstart, reserve)", "jobqueue/serverWebI.go: webInterfaceStatusWS"]}
{"id": "C94", "title": "Jobs that stay ready are looked at again and again", "statement": "Whenever jobs are ready and the server is neither paused, drained nor stopped, runners will be scheduled again within a bounded time even if nothing else happens (runners may have died or left because of a limit); at most one check waits at any time; the server never blocks over this.", "quantifier": "all interleavings of jobs becoming ready, the callback, its checks, the timer, pauses and resumes", "why_tests_cant": "a race of a few microseconds decides", "anchors": ["jobqueue/server.go: createQueue (ready added callback, racCheckTimer)", "queue/queue.go: readyAdded, TriggerReadyAddedCallback"]}
{"id": "C95", "title": "The scheduler is asked for as many runners as can be used", "statement": "After each look at the ready jobs, the scheduler has been told for every scheduler group as many runners as its jobs run plus as many as are ready and have room in the limits, with the highest priority of its ready jobs, and nought for every other group it was told of before; what it was told last is what the server believes. If a group can never run, exactly its ready jobs are buried.", "quantifier": "all sets of ready and running jobs, limits, histories and failures of the scheduler", "why_tests_cant": "all histories and combinations", "anchors": ["jobqueue/server.go: createQueue (ready added callback), scheduleRunners, decrementGroupCount, sgroup"]}
{"id": "C96", "title": "The file of commands is what is added", "statement": "wr add makes one job of each line of its input that is not empty, in this order; a line without a tab that does not begin with a brace is the command, character by character; what is before a tab is the command and what is after it are its options; or it adds no job at all and says why (no JSON, too many columns, a line too long, options that cannot be converted). What a line means does not depend on other lines; an option given in the line means the same as the option given for all lines.", "quantifier": "all files, lines, options and converters", "why_tests_cant": "all texts", "anchors": ["cmd/add.go: parseCmdFile"]}
{"id": "C97", "title": "Requests over the REST API and the status page act on the jobs they describe", "statement": "A request that names jobs by key, report group (or part of it) and state is answered with exactly these jobs. Cancelling kills exactly the running, or confirms exactly the lost, or deletes exactly the other incomplete jobs that are described, as the state says; exactly the jobs affected are in the answer; a request without a proper state or limit is refused and does nothing. Posted jobs are added all or none, and the answer lists those now in the queue. The status page removes, retries and kills only jobs in a state where this makes sense, of a group exactly those with the exit code and fail reason shown.", "quantifier": "all queues, groups, keys, states and requests", "why_tests_cant": "all combinations of jobs and requests", "anchors": ["jobqueue/serverREST.go: restJobs, restJobsStatus, restJobsAdd, restJobsCancel", "jobqueue/serverWebI.go: webInterfaceStatusWS, reqToJobs", "jobqueue/server.go: getJobsByKeys, getJobsByRepGroup, getJobsCurrent, killJob, inputToQueuedJobs", "jobqueue/serverCLI.go: itemToJob"]}
{"id": "C98", "title": "A runner handles every job it gets and stops in time", "statement": "Every job that a runner got it runs or gives back, exactly once, before it asks for another; it runs no other. It never starts a job that is not expected to end within its time. It goes on after jobs that failed, and stops after it gave one back, was told to, got none or lost its server; then it does nothing more. It waits longer for an answer than the server for a job.", "quantifier": "all sequences of jobs, times, failures and signals", "why_tests_cant": "all histories", "anchors": ["cmd/runner.go: runnerCmd"]}
{"id": "C99", "title": "Items leave the delay and run sub-queues in time, and calls that put them there return", "statement": "Whenever nothing is going on, the goroutine that moves delayed items to ready (or times out running ones) is set to wake no later than the first of them is due, whatever was added, released, touched, updated or removed before and in whatever order calls and the goroutine took their steps; so an item that is overdue leaves at once. It never leaves early. Every call that had to wake the goroutine returns; the goroutine never blocks.", "quantifier": "all interleavings of any number of calls with the goroutine, all times", "why_tests_cant": "races of a few microseconds decide", "anchors": ["queue/queue.go: startDelayProcessing, delayNotificationTrigger, startTTRProcessing, ttrNotificationTrigger, AddMany, Update, SetDelay, Destroy"]}
{"id": "C100", "title": "A Reserve that waits gets an item when there is one", "statement": "A call of Reserve that is to wait returns an item of its group as soon as one gets ready (or is moved to this group), if there are not other calls that wait for it; each item makes one call go on. While a call waits no ready item of its group is left lying. It returns that nothing is ready only when its time is over.", "quantifier": "all histories of items getting ready, changing group, being taken, of calls and of times running out", "why_tests_cant": "lost wake-ups are races", "anchors": ["queue/queue.go: Reserve", "queue/subqueue.go: notifyPush, triggerNotify, push, update"]}
{"id": "C101", "title": "The output shown for a failed job is that of its last run", "statement": "When the output of a job that exited with a code other than 0, or that is buried, is asked for, it is what its last run printed on standard output and standard error, as reported by the client that ran it; nothing if it was not run since it was added or its client died. For other jobs nothing is shown. Output of two runs or of two jobs is never mixed. If more than 1000 such jobs are listed together no output is shown, else all. Asking returns.", "quantifier": "all histories of jobs added, run, failing, archived, deleted, modified, buried and kicked, and all orders in which the database executes what it was asked to write", "why_tests_cant": "writes are asynchronous; their order is up to the runtime", "anchors": ["jobqueue/db.go: updateJobAfterExit, retrieveJobStd, archiveJob, deleteLiveJobs", "jobqueue/server.go: releaseJob, shouldPopulateStd, populateJobData, scheduleRunners", "jobqueue/serverCLI.go: jobPopulateStdEnv, jobCouldHaveStd"]}
{"id": "C102", "title": "The last completion time of a report group is that of its last job", "statement": "The completion time given for a report group is the latest end time, in whole seconds, of all its jobs that were archived, in whatever order they were; none is given if there were none or the group was not asked for; it never gets earlier.", "quantifier": "all sequences of archived jobs with end times that fit in 64 bits, including those before 1970", "why_tests_cant": "all sequences and orders", "anchors": ["jobqueue/db.go: archiveJob, retrieveLastCompletionTimeByRepGroup"]}
{"id": "C103", "title": "Bad cloud servers are known until they are good again or confirmed dead, and are then destroyed with their jobs", "statement": "A cloud server that has gone bad is in the list of bad servers until it is found to be good again, destroyed, or confirmed to be dead by a user; only bad servers are in it. A server that is confirmed (by a user, by host name, or by the timer after it was bad for the whole of the configured time without interruption) is destroyed, and the jobs on it are killed; jobs on servers that are not destroyed are not killed. Destroyed servers and those with a permanent problem are never good again.", "quantifier": "all interleavings of servers going bad and good, callbacks, timers and confirmations over the command line, REST API and status page, and failures of the provider", "why_tests_cant": "races between the scheduler's checks and confirmations", "anchors": ["jobqueue/server.go: Serve (badServerCB), getBadServers, killBadCloudServers, destroyBadCloudServer, killCloudServer, killJobsOnServers", "jobqueue/serverREST.go: restBadServers", "jobqueue/serverWebI.go: webInterfaceStatusWS (confirmBadServer)", "jobqueue/scheduler/openstack.go: stateUpdate, runCmd", "cloud/server.go: GoneBad, NotBad, IsBad, BadDuration, Destroy"]}
{"id": "C104", "title": "The remote file systems of a job are mounted where asked, and unmounted again", "statement": "If Mount returns no error, each mount configuration of the job is mounted, in order, at the place its options ask for, with the caches, retries and targets asked for, and nothing else is; the returned directories are those inside the working directory and the relative caches. If it returns an error, nothing of the job stays mounted. Unmount unmounts all that was mounted, also after a failure of one, uploads if not told otherwise, and an Unmount without error leaves nothing mounted. A signal makes a client unmount without uploading and end in order.", "quantifier": "all jobs and mount configurations, all sequences of calls, all failures of the file system library", "why_tests_cant": "the failures of the remote file system and the sequences of calls are unbounded", "anchors": ["jobqueue/job.go: Mount, Unmount", "jobqueue/mount.go: MountConfig, MountTarget", "jobqueue/client.go: Execute"]}
{"id": "C105", "title": "A command that runs is watched", "statement": "While the command of a job runs, the client notices signals, kill requests, full disks and excessive use of memory, and kills the command only for these. A kill request makes the client kill the command, and the job is then buried as killed. The reason given for a failure and the peak memory are those that were measured. Once the command has exited the client comes to its decision.", "quantifier": "all interleavings of the client's goroutines, measurements, signals, kill requests and the end of the command", "why_tests_cant": "races between goroutines; kill requests at any time", "anchors": ["jobqueue/client.go: Execute"]}
{"id": "C106", "title": "A job that could not be started leaves nothing behind, and the server knows", "statement": "The command of a job is started only by the client that reserved it and once its directory, mounts, environment and docker access are set up. If one of these fails, the server is told exactly once, to bury or release the job with the reason, no file system stays mounted, temporary directories are removed, and Execute returns. If the server cannot be told that the command was started, the command is killed and nothing stays mounted.", "quantifier": "all jobs and all combinations of failures of what is set up", "why_tests_cant": "combinations of failures", "anchors": ["jobqueue/client.go: Execute, createLSFSymlinks", "jobqueue/utils.go: mkHashedDir"]}
{"id": "C107", "title": "The --mounts option means what its help says", "statement": "A comma-separated list of [c|u][r|w]:[profile@]bucket[/path] is read as those targets, in order; anything else is refused; exactly one of --mounts and --mount_json is needed.", "quantifier": "all strings", "why_tests_cant": "all strings", "anchors": ["cmd/mount.go: mountParse, mountParseSimple"]}
{"id": "C108", "title": "What a client tells the server about its job counts once, and the client's own copy says the same", "statement": "A client that reserved and started a job tells the server how it ended with Archive, Release or Bury, and Execute tells again when no answer comes. The end of a run takes effect at most once, however often it is told and whatever others do to the job meanwhile; when the server answers that all is well, client and server are as if it had been told exactly once; telling again after a lost answer ends as soon as an answer is heard; and afterwards the client's copy of the job has the exit code, usage, attempts, tries left, reason and state that the server has.", "quantifier": "all jobs, all end states, all sequences of attempts (unreached, answered, answer lost) interleaved with what others do (delay over, reserved by another, retried, removed, confirmed dead)", "why_tests_cant": "needs a lost answer at a particular moment, followed by retries over up to 24 hours", "anchors": ["jobqueue/client.go: Started, Archive, Release, Bury, ended, request, Execute", "jobqueue/server.go: releaseJob, killJob", "jobqueue/serverCLI.go: jstart, jarchive, jrelease, jbury, getij"]}
{"id": "C109", "title": "The client library does to jobs what its documentation says", "statement": "NewJob gives a job the command, directory, groups, requirements and queues asked for, and 3 retries, and does not change jobs made before. With PretendSubmissions set, the jobs that SubmittedJobs, the Find methods and GetLastCompletionTimeByRepGroup report are exactly those submitted and not removed since, filtered by report group (exact, substring, prefix, suffix) and state; a list got before does not change; and disconnecting works.", "quantifier": "all sequences of submissions, removals and changes of jobs, all growth decisions of append, all schedulers and shared requirements, all report groups and queries", "why_tests_cant": "aliasing of slices, maps and pointers shows only for particular histories and capacities", "anchors": ["client/client.go: NewJob, determineOverrideAndReq, SubmitJobs, SubmittedJobs, RemoveJobs, FindJobsByRepGroupSuffix, FindIncompleteJobsByRepGroup, GetLastCompletionTimeByRepGroup, Disconnect", "jobqueue/client.go: RepGroupMatches"]}
{"id": "C110", "title": "The disk and memory use reported for a job is what it used", "statement": "While a command runs, its disk use is measured as the whole MBs of every file in its own temporary and working directory and in the cache directories that its mounts name, each file counting once, except what is in mounts that already held something when the command started; it is never more than the bytes there and less by under a MB per file. Its memory is that of its process and all processes below it. The peaks reported are the highest of all measurements (memory: also the kernel's own figure, plus the runner's own use); the command is taken to have run out of memory if it used more than it asked for, and killed for it only when it also uses more than 90% of the machine's memory; killing it reaches every process below it and no other.", "quantifier": "all directory trees, skipped directories, mounts and cache directories, process trees, sequences of readings and machine sizes", "why_tests_cant": "tests measure one directory with a few large files; small files, shared cache directories, unreadable directories and processes, and peaks between readings are not tried", "anchors": ["jobqueue/utils.go: currentMemory, currentDisk, getChildProcesses", "jobqueue/client.go: Client.Execute (diskUsageCheck, killCmd, resource checks)", "jobqueue/job.go: Job.Mount"]}
{"id": "C111", "title": "wr add --sync exits as the command did", "statement": "wr add --sync waits until its job is complete or buried and then exits with the exit code of the command's last run: with 0 exactly if the job was completed after it was added, never before the job has been run, and never by crashing.", "quantifier": "all histories of the job: other people adding, deleting and kicking it, any number of tries, any exit codes, looks at the job at any moment, also while the server is still recording an end", "why_tests_cant": "tests run one command that works and one that fails; looks that fall between two steps of the server, uploads that fail, jobs already there and jobs that get removed are not tried", "anchors": ["cmd/add.go: synchronousAdd, waitForJobCompletion, getJob", "jobqueue/serverCLI.go: handleRequest (add, getbc, jarchive, jrelease, jbury)", "jobqueue/server.go: inputToQueuedJobs, releaseJob, getJobsByKeys", "jobqueue/client.go: Client.AddAndReturnIDs, Client.GetByEssence"]}
{"id": "C112", "title": "An uploaded file is at the path that the upload is answered with, whole and as it was sent", "statement": "If an upload is answered with a path, exactly the bytes sent are in the file at that path from then on; uploads without a path get the same path exactly if they sent the same bytes; no part of a file is ever seen under its final name, whenever the server is killed; other files are left as they were; a path given with ~/ is in the home directory.", "quantifier": "every set of uploads, with and without paths, every order of their system calls, every crash point, every content of the disk before", "why_tests_cant": "Tests upload one file at a time to a path where there is no file; what is left of an older, longer file, simultaneous uploads and crash points can't be enumerated.", "anchors": ["jobqueue/server.go: Server.uploadFile", "jobqueue/serverREST.go: restFileUpload", "jobqueue/serverCLI.go: handleRequest (upload)", "jobqueue/client.go: Client.UploadFile", "jobqueue/utils.go: calculateHashedDir", "internal/utils.go: TildaToHome"]}
{"id": "C113", "title": "Commands that act on chosen jobs act on exactly those", "statement": "wr remove, wr kill and wr retry act on exactly the jobs chosen with -a, -i (exactly, or with -z as a part), -y, -f or -l that are in a state the command is for: retry makes every chosen buried job ready with all its tries and says how many those were; kill marks every chosen running job that is not lost and has run for --age, and with --confirmdead releases (or, after its last try, buries) every chosen job lost for --age; remove removes every chosen job that is not running (with -b: that is buried) but for those that remaining jobs depend on, in whatever order they are given. No other job is changed, whatever happens between the listing and the request that acts.", "quantifier": "all queues with distinct keys, all options, all ages and times, any change of the queue between the two requests", "why_tests_cant": "The jobs listed are found by one request and acted on by another; the outcome depends on the state of each job at both, on the dependencies among the chosen and on the order of the keys.", "anchors": ["cmd/remove.go: removeCmd", "cmd/kill.go: killCmd", "cmd/retry.go: retryCmd", "cmd/status.go: getJobs", "jobqueue/serverCLI.go: jkick, jdel, jkill", "jobqueue/server.go: deleteJobs, kickJobs, killJob, releaseJob"]}
{"id": "C114", "title": "Lost jobs are given up only when they are dead, and then they are", "statement": "When the runner of a running job is not heard of, the job is tried again without the user's say only after its process was looked for on its host and is gone; so the command never runs twice at a time. A lost job whose process is gone is sooner or later found to be so, and then is delayed, or buried after its last try. No run is told to stop that no one asked to stop.", "quantifier": "all histories of one job: any order of reservations, starts, touches, ends, losses, checks by any number of goroutines, kills by users, and any death of processes and failure of ssh", "why_tests_cant": "What happens depends on the interleaving of the runner, of users and of several goroutines that wait for ssh or half an hour between looking and acting.", "anchors": ["jobqueue/server.go: SetTTRCallback, confirmJobDeadAndKill, confirmJobDead, confirmJobDeadAndKillAfterRetryTime, killJob, releaseJob", "jobqueue/scheduler/scheduler.go: ProcessNotRunningOnHost", "jobqueue/serverCLI.go: reserve, jstart, jtouch, jkill", "jobqueue/serverWebI.go: reqToJobs"]}
{"id": "C115", "title": "Deploying to a cloud and tearing down touch only what is ours, repeatably and completely", "statement": "Deploy() and TearDown() with a resource name never change key pairs, security groups, networks, routers or servers of others. After a Deploy() reported success everything needed is there (a private key, a security group with all rules, a network whose subnet the router connects), further Deploy()s of any session create nothing more, and after TearDown() reports success nothing with the name is left, whatever calls failed or processes were killed before. Processes on a server of the cloud do not damage the deployment they run in, and never destroy that server.", "quantifier": "every cloud, resource name and list of ports, and every sequence of sessions, Deploy(), TearDown(), spawned servers, calls that fail with or without effect, and processes killed between any two calls", "why_tests_cant": "the interesting histories are failures and kills between two calls of the cloud's API, and other people's resources in the same cloud; tests need a real cloud and do each thing once", "anchors": ["cloud/cloud.go: New, Deploy, TearDown, saveResources, loadResources, nameToHostName", "cloud/openstack.go: deploy, tearDown, inCloud"]}
{"id": "C116", "title": "The servers and the head node of a cloud deployment are known in every session", "statement": "Servers() returns exactly the servers with an external IP that were spawned, in this session or earlier ones with the same name, and not destroyed or found not to work since. There is at most one head node, it is the first such server, and HeadNode() returns the same one in every session. Different servers have different host names, so that GetServerByName() tells them apart.", "quantifier": "every sequence of sessions, Deploy(), Spawn(), CheckServer(), DestroyServer(), TearDown(), calls at the same time that change the memory and save the file in two steps, saves that fail, processes that are killed, and servers that change on their own; every resource name of allowed length and all UUIDs", "why_tests_cant": "histories over several sessions with kills and concurrent calls; tests need a real cloud and start with none or one server", "anchors": ["cloud/cloud.go: New, Deploy, Spawn, CheckServer, DestroyServer, Servers, HeadNode, GetServerByName, saveResources, loadResources, nameToHostName", "cmd/root.go: maxCloudResourceUsernameLength, cloudResourceName"]}
{"id": "C117", "title": "Details of jobs shown on the status web page", "statement": "A status web page that was sent the details of jobs it asked for is sent the new details whenever one of them changes, so that in the end it shows the details, and the state, the job has; it is sent nothing about jobs it did not ask for, nothing after it was closed, and nothing about a job it unsubscribed from.", "quantifier": "all sets of pages and jobs, all orders of requests, unsubscriptions, closing, changes of jobs, runs of the callbacks and writes by their goroutines", "why_tests_cant": "The pushes are made by goroutines of callbacks that run concurrently with requests; a test sees one order.", "anchors": ["jobqueue/server.go: createQueue (changed callback), subscribeToJobs, unsubscribeFromJob, cleanupSubscriptions, storeWebSocketConnection, closeWebSocketConnection, releaseJob, kickJobs", "jobqueue/serverWebI.go: webInterfaceStatusWS, setupUpdateListener", "jobqueue/job.go: ToStatus", "jobqueue/serverCLI.go: itemToJob, itemStateToJobState"]}
{"id": "C118", "title": "Warnings of the scheduler", "statement": "Every warning of the scheduler is outstanding, with how often it was given and when first and last, until it is read through the REST API or dismissed on a web page; every one is told to exactly one reader; and pages are told of all outstanding ones.", "quantifier": "all histories of warnings, readings, dismissals and pages", "why_tests_cant": "Counting over arbitrary interleavings of warnings and readers is a statement about all histories.", "anchors": ["jobqueue/server.go: Serve (messageCB)", "jobqueue/serverREST.go: restWarnings", "jobqueue/serverWebI.go: webInterfaceStatusWS (current, dismissMsg, dismissMsgs), setupUpdateListener"]}
{"id": "C119", "title": "ssh sessions and commands on cloud servers", "statement": "No ssh connection to a cloud server carries more than 10 sessions; connections that have room are used again, and a session that is over makes room. Running a command over ssh returns exactly once, with the error and output all of the command or all of its cancellation, the latter only if the server was destroyed or the context done; it does not go on waiting for the command after that, and neither it nor destroying the server panics or blocks, in any order.", "quantifier": "all histories of sessions, file transfers, failures, timeouts and resets of the connections; all orders of the channel operations of the goroutines of a command, of the end of the command, of destroying the server and of the context", "why_tests_cant": "Orders of goroutines and leaks over long histories; tests need a real cloud server.", "anchors": ["cloud/server.go: SSHClient, SSHSession, CloseSSHSession, UploadFile, CreateFile, DownloadFile, WaitUntilReady, RunCmd, Destroy"]}
{"id": "C120", "title": "Stopping the manager", "statement": "However often and in whatever order the manager is told to stop -- Stop(), the shutdown request, draining, signals, the expiry of the certificate -- exactly one of these stops it. From its first step until the socket is closed every runner that touches is told to kill its command; requests are served until the socket is closed, and the database is closed only after that. When a stop that waits returns, there are no runners, the database is closed and nothing is served any more. It always gets there once the runners have ended, and a Block() then returns with the reason.", "quantifier": "all interleavings of calls of Stop, Drain and Block, signals, callbacks, touches, starts and ends of runners and jobs, and the steps of all calls of the shutdown", "why_tests_cant": "Concurrent shutdowns and callbacks in every order; a test stops a server once.", "anchors": ["jobqueue/server.go: Serve (signals), Block, Stop, Drain, shutdown, createQueue (ready added callback)", "jobqueue/serverCLI.go: handleRequest (the check, jtouch)"]}
{"id": "C121", "title": "What `wr status` prints is what the jobs are", "statement": "For every list of jobs fetched from the manager: the counts format gives for every state the number of jobs in it, reserved jobs being running, and together all of them; the plain format has a line per job, in order, and exits 0 just when none is buried; the summary never crashes, has one line per report group in order of name and a last one for all if there are several, and on each line the numbers, the resource usage of the complete jobs, the first start and last end, and the identifiers of the buried jobs under their exit code and reason are exactly those of the jobs of that group; the details format accounts for every job and shows the output of just those that ended badly; --host keeps exactly the jobs of that host.", "quantifier": "all lists of jobs, states, report groups, exit codes, reasons and hosts", "why_tests_cant": "the output is one function of the whole list of jobs, with five maps keyed by report group and special names; tests look at a few lists", "anchors": ["cmd/status.go: statusCmd", "jobqueue/job.go: ToStatus"]}
{"id": "C122", "title": "`wr mod` changes what its options say and nothing else", "statement": "For every choice of options of `wr mod`: on each chosen job that is not running every aspect for which an option is given has the value of the option afterwards (an empty value turning it off), every other aspect is as before, and the old and new identifiers printed are those of the changed jobs; a job is left alone only if it would become the same as another one. If jobs are not chosen, or a new command line is given for several jobs, or a value is not understood, nothing is changed.", "quantifier": "all combinations of the options and their values, all lists of chosen jobs", "why_tests_cant": "about forty options interact in one modification request; tests try a few of them one at a time", "anchors": ["cmd/mod.go: modCmd", "cmd/add.go: colsToDeps, groupsToDeps, overrideStringToInt", "jobqueue/job.go: JobModifier"]}
{"id": "C123", "title": "wr manager start, stop, drain and status treat the manager, its files and its log as documented", "statement": "`wr manager stop` forgets the token and address of the manager exactly when it reports success, and then the manager it found no longer answers; it signals only the process in the pid file and a manager on this machine that answers it, and asks only a manager elsewhere, that accepts the token, to shut down; it works for a manager that obeys signals, and fails changing nothing if there is none. `drain` forgets the token exactly when the manager reports that no job runs. `status` reports only a manager that answers and says stopped only if none does. `start` refuses to start a second manager when one answers, reports success only if one answers, re-uses the token left by an unclean exit, and what it started can be stopped. The errors shown are exactly the error lines of the log since the manager last started.", "quantifier": "all configurations, processes, managers answering at any addresses, reactions to signals and requests, and file states; all logs", "why_tests_cant": "Tests start and stop one well-behaved manager; the property ranges over all combinations of stale files, unresponsive processes, forwarded ports and several managers, and over all log contents.", "anchors": ["cmd/manager.go: managerStartCmd, managerStopCmd, managerDrainCmd, managerStatusCmd, getBadLogLines, deleteToken", "cmd/root.go: stopdaemon, connect", "jobqueue/client.go: Connect, ShutdownServer"]}
{"id": "C124", "title": "Requests handled at the same time neither hand a job to two clients nor lose or exceed the slots of limit groups", "statement": "However the server interleaves the handling of requests to reserve, start, release, bury, archive, kick and delete jobs: at most one client has a job at any time; the clients never work on more jobs of a limit group than its limit; a client that was handed a job and asks for its end is not told that the job is not its; and when no request is being handled and nobody has a job, every slot of every limit group is free again.", "quantifier": "every number of clients, jobs and limit groups, every history of requests, and every interleaving of the lock-delimited steps of their handling, including delays that end and kicks at any moment", "why_tests_cant": "The races are between the test of who reserved a job, the move of the job in the queue and the bookkeeping afterwards; tests see only a few schedules, and the windows are microseconds wide.", "anchors": ["jobqueue/serverCLI.go: handleRequest (reserve, jstart, jarchive, jrelease, jbury, jkick), getij, reserveWithLimits", "jobqueue/server.go: releaseJob, kickJobs, deleteJobs", "jobqueue/job.go: noteIncrementedLimitGroups, updateAfterExit, decrementLimitGroups", "limiter/limiter.go: Increment, Decrement"]}
{"id": "C125", "title": "A start of the server keeps its token, certificates and key, or makes them, at whatever moment an earlier start died", "statement": "A server that starts uses the token of its token file if there is one, otherwise a new random one that it writes there; a start that fails leaves the token as it was. No start ever changes an existing certificate, CA or key. In a directory without them they are made, and clients with the CA and the token can connect for a year, others cannot. Whatever earlier starts did and wherever they died, a start in which nothing goes wrong works, with the same token, until the certificate expires.", "quantifier": "every state of the files, every random source and clock, every sequence of starts that fail or die at any write", "why_tests_cant": "Crash points between the writes of several files, and sequences of crashed starts, cannot be enumerated by tests.", "anchors": ["jobqueue/server.go: Serve", "jobqueue/utils.go: generateToken", "internal/cert.go: GenerateCerts, CheckCerts, CertExpiry, encodeAndSavePEM", "jobqueue/client.go: Connect"]}
{"id": "C126", "title": "Commands on cloud servers", "statement": "The commands that the cloud scheduler has started on a server were never promised more cores, memory or disk together than the server has, and what they used is given back in full when they end, so that a command always starts if it fits beside what runs there. When a command on a cloud server fails, the user is told and no further command ever starts there; when a server cannot be reached, the user is told and no command starts there until it can be reached again; what the user was last told about a server is what the scheduler thinks of it. After cleaning up no command starts and no server is left, including servers that come up later. A server on which commands of an earlier manager still run is kept until they have ended, is looked after once however many commands it has, and is destroyed at the next check after they have ended.", "quantifier": "all histories of servers coming up, being checked, going bad, being destroyed, of commands starting and ending in any order with any outcome, of cleaning up and of recovering any hosts, with any number of servers and commands of any size", "why_tests_cant": "needs cloud servers that fail at every possible moment; the tests start a few servers", "anchors": ["jobqueue/scheduler/openstack.go: runCmd, stateUpdate, spawn, recover, cleanup", "cloud/server.go: Allocate, Release, GoneBad, NotBad, Destroy, Alive"]}
{"id": "C127", "title": "Jobs wait for what they depend on, and not longer", "statement": "Along the whole life of a workflow, with jobs being added, run, failing, kicked, deleted and changed, and with restarts of the manager, no job is handed to a runner while a job it depends on, by its command or by one of its dependency groups, is incomplete; such a job cannot be deleted; a job that waits always depends on something incomplete, becomes ready in the request that completes the last of these, and as long as dependencies have no cycle there is always an incomplete job that does not wait. Complete jobs that depend on a group come back and wait when a job is added to the group.", "quantifier": "all histories of requests (and, for the violations, interleavings of their steps), with any jobs, groups, dependencies, and restarts at any point", "why_tests_cant": "needs every order of additions, ends, changes and restarts over dependency graphs of any shape; the tests have a few fixed workflows", "anchors": ["jobqueue/server.go: createJobs, updateJobDependencies, Serve, deleteJobs", "jobqueue/dependency.go: incompleteJobKeys", "jobqueue/db.go: storeNewJobs, retrieveDependentJobs, retrieveIncompleteJobKeysByDepGroup, modifyLiveJobs", "jobqueue/serverCLI.go: jarchive, jdel, jmod", "queue/queue.go: AddMany, Update, Remove, Kick, ChangeKey, HasDependents"]}
{"id": "C128", "title": "The LSF emulation submits, lists and kills what it is told to", "statement": "bsub submits the script it reads as the command, with the name, cores and memory of its directives, the options and mounts of the job whose command called it (at any depth), and prints a number that belongs to this job alone for as long as it is in the queue; bjobs lists exactly the incomplete jobs that have a number, with the columns and delimiter asked for; bkill ends the jobs with the numbers given and no others, prints one line for each number, saying that a job is being terminated exactly if it is, and returns. Flags meant for bjobs are taken out of the command line and nothing else is.", "quantifier": "all scripts, nestings, histories of the manager, lists of jobs and formats, and all interleavings of bkill with what happens to jobs", "why_tests_cant": "scripts, formats and the interleavings of bkill with jobs that end or start are unbounded; tests have no LSF emulation but a few literals", "anchors": ["cmd/lsf.go: lsfBsubCmd, lsfBjobsCmd, lsfBkillCmd, filterGoFlags", "jobqueue/server.go: createJobs, BsubID, killJob, deleteJobs", "jobqueue/job.go: Modify", "jobqueue/client.go: Execute, GetByEssence", "jobqueue/serverCLI.go: jdel, jkill, getbc"]}
{"id": "C129", "title": "Config files a user names are on every cloud server their commands run on", "statement": "When files are named as config files at deployment, at the start of the manager or for a job, then on every server a command that needs them can go to - whether made for it or for others before - each such file that existed on the user's computer is at the place named, with the contents it had when the job was added and mode 600; files that don't exist are ignored; nothing else on the server is changed; and nothing but failures of the network keeps servers from becoming ready.", "quantifier": "all specifications (lists of paths with and without destinations), all contents and home directories of the three computers, all histories of edits, additions and new servers", "why_tests_cant": "the paths pass through three programs on three computers, each of which parses and rewrites the specification, and a server is used for a job if strings are equal; tests with a real cloud have a few fixed paths", "anchors": ["cloud/server.go: CopyOver, WaitUntilReady, Matches, HomeDir", "cmd/add.go: copyCloudConfigFiles, parseCmdFile", "cmd/cloud.go: bootstrapOnRemote", "jobqueue/scheduler/openstack.go: serverReqs, AddConfigFile, spawn, runCmd", "jobqueue/server.go: uploadFile", "internal/utils.go: TildaToHome"]}
{"id": "C130", "title": "Killing a job ends everything its command started, and nothing else", "statement": "When a running job is killed - by the user, because of memory or disk space, because of a signal, or because the server couldn't be told that it started - then afterwards no process its command started, directly or not, and no container of it runs; no process or container that isn't the job's is touched; the kill always comes to an end; and the memory and processor time reported are the largest that were seen, the container's included.", "quantifier": "all trees of processes, all interleavings of the kill with forks and ends of processes, all containers with any names, all histories of checks", "why_tests_cant": "the processes go on while the kill looks for them one after another; tests kill a few sleeping processes in a quiet tree", "anchors": ["jobqueue/client.go: Execute (killCmd, the resource checks)", "jobqueue/utils.go: getChildProcesses"]}
{"id": "C131", "title": "wr add warns about commands that would not find their files", "statement": "When commands are added whose working directory will be a new one, the user is warned, once however many commands there are, if and only if one of them refers to an entry of the directory it was given by a relative path: by name, with ./, as the value of an option, at the end of a statement or sub-shell, or by a pattern. Commands for which the directory matters, and commands with absolute paths only, cause no warning, and the check can be disabled.", "quantifier": "all command lines, directory contents, patterns and lists of commands in any directories", "why_tests_cant": "the check guesses from the text of a command; tests have a table of some thirty command lines for one directory with two entries", "anchors": ["internal/relarg.go: GetFilesInDir, CmdlineHasRelativePaths, argIsRelativeGlob, argIsARelativePath, cleanArg", "cmd/add.go: checkForRelativePathsInNonCwdMatters"]}
{"id": "C132", "title": "A runner is started with what it needs, and found again", "statement": "The command that a runner is started with, read by a shell and by the runner, makes the runner ask for jobs of the group it was started for, from the manager that started it, wait for as long as was asked for, and keep going for long enough to run a job of that group. After a restart of the manager each runner that is still running a job is found again and what it uses is counted once, until it ends.", "quantifier": "all names of groups, limit groups, addresses, paths and times, all queues of LSF, all orders in which runners are recovered and end", "why_tests_cant": "tests start runners with a few names and times; what a shell makes of a name, the time left when the first job arrives and the commands of runners that are still there after a restart can't be covered by examples", "anchors": ["cmd/manager.go: startJQ (runnerCmd)", "jobqueue/server.go: groupToScheduleCmd, Serve (recovery)", "jobqueue/scheduler/scheduler.go: MaxQueueTime, ReserveTimeout", "jobqueue/scheduler/local.go: recover, reserveTimeout, maxQueueTime", "jobqueue/scheduler/lsf.go: maxQueueTime, determineQueue", "cmd/runner.go: flags, Run"]}
{"id": "C133", "title": "What wr knows of LSF is what LSF says", "statement": "When wr is started on an LSF cluster it starts whatever bqueues -l and bmgroup -w print, and knows just the queues the user may use, each with the priority, limits of jobs, time and memory, users, hosts and chunk size that LSF says it has; default limits are not taken for maximum ones. The memory limit it submits jobs with is the memory they need, in the unit that LSF is configured for.", "quantifier": "all descriptions of queues and groups, by any spacing, in any number, with any other lines in them; all users; all memory limits and requirements", "why_tests_cant": "there is no LSF where the tests are run; the few outputs that a parser is tried on do not have the fields, units, groups and widths of every cluster", "anchors": ["jobqueue/scheduler/lsf.go: initialize, parseBmgroups, generateBsubArgs"]}
{"id": "C134", "title": "Calls do not wait for each other for ever", "statement": "However many clients, web pages, runners and background tasks use the manager at the same time, and in whatever order they get on, no call waits for ever for a lock that another call has: each call can always go on, or waits for one that can.", "quantifier": "all numbers of calls of all methods of the server, its queue, its database and the local scheduler and of all goroutines they start; all interleavings; all branches and numbers of iterations in them", "why_tests_cant": "a deadlock needs two or more calls to reach certain lines in a certain order; tests take a few of the orders of a few of the calls", "anchors": ["jobqueue/server.go: releaseJob, decrementGroupCount, scheduleRunners, createQueue, shutdown", "jobqueue/serverCLI.go: handleRequest, jobPopulateStdEnv", "queue/queue.go: startTTRProcessing, Remove, readyAdded", "jobqueue/db.go: updateJobAfterExit, retrieveJobStd", "jobqueue/job.go: Modify", "jobqueue/scheduler/local.go: schedule, processQueue, cleanup"]}
{"id": "C135", "title": "Kubernetes is asked for what jobs need, and pods that end are noticed", "statement": "With the kubernetes scheduler, a pod asks for the CPU, memory and disk that its job needs, within limits that are not below that; a job is said to be impossible just if no node is large enough; every question whether a job is possible gets one answer; each pod runs with the post-creation script of its own job, or else the one of the configuration; its command reaches it unchanged; the config files that exist are copied to their places; and the command that started a pod is told that it succeeded or failed when, and only when, it did, without the manager crashing.", "quantifier": "all requirements, sets of nodes, orders of questions and answers, sequences of jobs with and without scripts, lists of files, and all interleavings of what Kubernetes reports, of the workers and of the goroutines that tell", "why_tests_cant": "The tests for kubernetes need a cluster and look at a few pods; the order in which goroutines and reports arrive is not controlled by them.", "anchors": ["jobqueue/scheduler/kubernetes.go: initialize, schedule, runCmd, rewriteConfigFiles, rewriteDests, generateResourceRequests, generateResourceRequirements, reqCheck", "kubernetes/client/kubernetes.go: Spawn", "kubernetes/scheduler/controller.go: Run, processNextWorkItem, processItem, processPod, handleErr, reqCheckHandler, podAliveHandler", "cmd/kubernetes.go: rewriteConfigFiles"]}
{"id": "C136", "title": "wr mount mounts where it is told to, and what is written is uploaded when it ends", "statement": "wr mount mounts each configured file system where its help says, by default mnt in the current directory, runs until it is signalled, and then unmounts all of them, so that everything written to them is uploaded; if something cannot be mounted or uploaded its exit status says so and nothing is left mounted.", "quantifier": "all lists of configurations, working directories, foreground or background, and all interleavings of mounts, writes, signals, and unmounts that succeed or fail", "why_tests_cant": "Tests need FUSE and S3, mount one file system, and do not signal at every moment or make mounts fail.", "anchors": ["cmd/mount.go: mountCmd, mountAndWait"]}
{"id": "C137", "title": "Deploying to a cloud and tearing down keep the history of jobs", "statement": "In production, the manager that wr cloud deploy starts knows everything that was recorded before, and after wr cloud teardown without --force, or with a backup in S3, a manager started locally knows everything that was recorded in the cloud; deploying again to re-establish a connection changes nothing of this, however parts of it fail; and only processes that wr started are killed.", "quantifier": "all sequences of deploying, working in the cloud and locally, managers that end, and tearing down, with every combination of failing steps, with and without a backup in S3, and all sequences of processes that start and end", "why_tests_cant": "It needs a cloud; the tests for deploy do it once, with nothing failing.", "anchors": ["cmd/cloud.go: cloudDeployCmd, cloudTearDownCmd, bootstrapOnRemote, startForwarding, checkProcess, killProcess, teardown", "jobqueue/client.go: BackupDB"]}
{"id": "C138", "title": "What wr k8s deploy makes, wr k8s teardown deletes, and the history is kept", "statement": "After `wr k8s teardown` says that it deleted all, nothing that `wr k8s deploy` made is left in the cluster and nothing of the user's is gone; `deploy` deploys to the namespace it is given, with all that the deployment needs, and connects to it when it is called again; a teardown that failed can be tried again; and the history of all that was run, before and during the deployment, is what a manager knows afterwards.", "quantifier": "all histories of deploys, teardowns, work and namespaces made and deleted by the user, with any of the calls to the cluster failing, and all namespaces given", "why_tests_cant": "what is left depends on which calls failed in which earlier attempts; needs a cluster", "anchors": ["cmd/kubernetes.go: kubeDeployCmd, kubeTearDownCmd, openResources", "kubernetes/client/kubernetes.go: Initialize, Deploy, TearDown, NewConfigMap, CheckWRDeploymentExists, CheckWRDeploymentHealthy", "jobqueue/client.go: BackupDB"]}
{"id": "C139", "title": "The process that `wr k8s deploy` leaves behind gives the manager's pod its files, records it and forwards ports to it", "statement": "After `wr k8s deploy`, a process watches the pods of the manager's deployment. However the cluster's reports arrive and are delivered, once that process has nothing left to do it has acted on the last reported state of every pod: a pod that waits for its files has been sent each of them, to where it belongs and whole, or the failure is reported and tried again; the record kept for teardown names the pod in which the manager runs; and the manager's ports are forwarded to that pod, also after the pod has been replaced or a connection lost. No single failure stops the process.", "quantifier": "every sequence of reports about any number of pods, every order in which reports are delivered, worked on and retried, every failure of the network, the file system and the cluster, and every set of files", "why_tests_cant": "the process reacts to reports that come at any time, are merged while one is worked on, and may be about pods that have changed since; a test sees one order of events and no failures", "anchors": ["kubernetes/deployment/controller.go: Run, processNextItem, processItem, processPod", "kubernetes/client/pod.go: addFile, makeTar, CopyTar, PortForward, forwardPorts", "cmd/kubernetes.go: kubeDeployCmd", "kubernetes/client/kubernetes.go: Initialize"]}
{"id": "C140", "title": "An item's statistics tell what happened to it", "statement": "From the moment an item is added, its Stats tell how often it was reserved, ran out of time, was released, buried and kicked, how old it is, and how much of its time to run or of its delay remains; ReleaseAt and ReadyAt are set just while it is running or delayed.", "quantifier": "all states and all histories of calls and clock readings from the addition on; for the times, all histories that avoid the defect of Update recorded with C01", "why_tests_cant": "the counters are changed in a dozen places, each for a different pair of sub-queues; a test takes one path and looks at a few of them", "anchors": ["queue/item.go: Stats, ReleaseAt, ReadyAt, switchReadyRun, switchRunReady, switchRunDelay, switchRunBury, switchRunDependent, switchBuryReady, switchBuryDependent", "queue/queue.go: Add, AddMany, Release, Kick, Update"]}
{"id": "C141", "title": "Slots of limit groups survive restarts", "statement": "However often the manager is killed and started again, a ready job is handed out exactly if all its time windows are open and each of its limited groups has fewer jobs with runners than its limit; each running job gives back, when it ends, one slot of each of its groups, also if it was started by an earlier manager; and limits are as before.", "quantifier": "all histories of setting limits, handing out, starting and ending jobs, questions and restarts at any time, with any order of the jobs in the database", "why_tests_cant": "needs a manager killed at any moment with any set of running jobs, limits and clock", "anchors": ["jobqueue/server.go: Serve", "jobqueue/serverCLI.go: reserveWithLimits", "jobqueue/job.go: noteIncrementedLimitGroups, decrementLimitGroups", "limiter/limiter.go: Increment, Decrement"]}
{"id": "C142", "title": "wr limit tells the limits that are in place", "statement": "`wr limit` lists exactly the limits that are in place, and `wr limit -g name` prints the limit of the group, or -1 if it has none; when it sets a limit it prints that limit.", "quantifier": "all histories of setting limits, adding, starting and ending jobs, questions and restarts; all group names", "why_tests_cant": "what is listed depends on what is in memory, that is on everything that happened before", "anchors": ["cmd/limit.go: limitCmd", "limiter/limiter.go: GetLimits, GetLimit", "limiter/group.go: Limit, NewCountGroupData", "jobqueue/server.go: getSetLimitGroup"]}
{"id": "C143", "title": "A job that waits for a slot of its limit groups gets it when there is room", "statement": "An Increment of limit groups that is to wait takes its slots as soon as each of the groups has room, if others do not take them first; it never takes a slot that is not there. This holds whatever made the room: others that gave slots back, a limit that was raised or removed, or a time window that opened.", "quantifier": "all histories of increments with and without wait, decrements, changes of limits and time-outs, of any number of callers and groups", "why_tests_cant": "a wake-up that is lost needs a certain order of calls of several callers, and shows only as a long wait", "anchors": ["limiter/limiter.go: Increment, registerGroupNotifications, Decrement, SetLimit, RemoveLimit", "limiter/group.go: decrement, notifyDecrement"]}
{"id": "C144", "title": "A command the scheduler runs on the manager's own host returns, with what it printed", "statement": "RunCmd on the host of the local scheduler (also LSF's and others' when the host is the manager's own) returns once the command ends, for every command that ends, with exactly what the command wrote to its standard output and error, and an error exactly if the command failed.", "quantifier": "all commands (any order and amount of writes to the two outputs, any exit code) and all interleavings of the command with the reader", "why_tests_cant": "a deadlock needs more output than a pipe holds, in a certain order", "anchors": ["jobqueue/scheduler/local.go: RunCmd"]}
{"id": "C145", "title": "LSF: the jobs found in a listing, and those killed when the manager ends", "statement": "With the LSF scheduler, whatever `bjobs -w` lists and however wide its columns are, the number of jobs found for a command or a deployment is the number of its listed jobs that have not ended; the heading, jobs of other commands and jobs with other names do not count. What Schedule kills and submits follows from exactly those jobs. A listing that was cut short is an error and never taken for the whole: the manager then counts as busy. When the manager ends, exactly the jobs it submitted to LSF that have not ended are killed.", "quantifier": "all listings (any number of jobs and arrays, any users, queues, hosts, states, names and column widths, array index in either column), commands, deployments, and points where the listing is cut short", "why_tests_cant": "tests run against one LSF installation with a handful of jobs, or not at all; no test can range over all listings", "anchors": ["jobqueue/scheduler/lsf.go: parseBjobs, checkCmd, busy, cleanup, schedule", "jobqueue/scheduler/scheduler.go: jobName"]}
{"id": "C146", "title": "A changed job waits where its new requirements, limits and priority say", "statement": "After the requirements, limit groups, priority or command of a job in the queue were changed, it is handed to runners of the scheduler group that its requirements and limits say now and to no others, and takes its place among the jobs of this group by its new priority; a job that was not changed stays where it was. Once the server has looked at the ready jobs, the group by which runners get a job and the group the server takes it to be in are the same.", "quantifier": "all histories of additions, modifications, reservations, releases, removals and looks at the ready jobs, step by step, any number of jobs", "why_tests_cant": "a request that changes jobs and the look at the ready jobs run at the same time, and it matters between which lines of the one those of the other fall", "anchors": ["jobqueue/server.go: createQueue (ready added callback)", "jobqueue/serverCLI.go: handleRequest 'jmod', 'reserve'", "jobqueue/job.go: Modify, generateSchedulerGroup, setSchedulerGroup", "queue/queue.go: SetReserveGroup, ChangeKey, Update"]}
{"id": "C147", "title": "Jobs that share a working directory do not disturb each other while their directories are made and removed", "statement": "Any number of jobs can have the same Cwd, and each that does not ask to run in it gets a directory of its own below it. While a job runs, its directory and those above it are there and no other job has the same one, whatever other jobs make and remove. A job always gets its directory, even if others are being removed at that moment. When all jobs have ended nothing that was made for them is left below Cwd.", "quantifier": "all numbers of clients, all keys, all orders of their system calls, at any number of jobs one after the other or at the same time", "why_tests_cant": "each mkdir, open and remove of one client can fall between any two of another's; a test sees a few of these orders", "anchors": ["jobqueue/utils.go: calculateHashedDir, mkHashedDir, rmEmptyDirs", "jobqueue/behaviours.go: cleanup", "jobqueue/client.go: Execute"]}
