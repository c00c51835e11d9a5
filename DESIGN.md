# Formal model of wr (VertebrateResequencing/wr) in Lean 4

## Layout

* `properties.jsonl` – the English properties (C01, C02, …).
* `lean/Verif/<Area>/…` – for each area the executable model (every definition cites the file and lines in `/repo` that it
  models, and says where it simplifies), helper lemmas, and the property theorems (`…Props….lean`, and the files named below)
  with their small specifications and, beside each theorem, `example`s showing that a concrete non-trivial case meets its
  hypotheses.
* `MANIFEST.json` – property → theorem names and status.
* `seeded/LOG.jsonl` – wrong-program experiments: edits of the model that should break a theorem, and which theorems they broke. "killed" means that the edited model did not build. A build stops at
  the first module that fails, so that `failed` often names a lemma only: of the 2284 lines marked "killed", 1156 name no property theorem.
  Such a line shows that the edit is noticed, not that the property's theorem is false of the edited program, since the proof of a lemma
  that follows the code line by line can fail while the property still holds. For the edits of the models of C117, C146, C147 this was checked
  with random schedules of the edited model, and the property theorems found false are in `false_in_simulation` of the log: 55 of the lines
  that name a lemma only are confirmed so, 8 edits had made none false, after which the theorems were tightened, and 2 others turned out to be
  harmless. For the other properties it was not checked in this way.

## Conventions

A Go panic is an explicit `none`/`panic` outcome, errors are values, nil is an explicit case, maps are association lists or
functions to `Option`, pointers to queue items are natural numbers (the item's unique `iid`), the clock is a parameter of the
step. Concurrency is a transition system: what is done while holding a lock is one step; goroutines, channels and callbacks that
run without the lock are separate steps that may be interleaved in any order, so a theorem over all step lists is a theorem over
all schedules. Crashes are a step, or a cut at any prefix. Recursion that Go leaves to the stack is bounded by a number of steps
that is proved to be enough.

When the code violates a property, the negation is proved with a concrete witness (theorem named `…_violated…`) and the part
that is true is proved in a theorem with suffix `_partial`, whose hypotheses are what the code needs and does not guarantee.

## Plan

| id | modelled | proof |
|----|----------|-------|
| C01–C11 | `queue.Queue` as a state machine over item pointers, concrete heaps with back-indexes, key map, dependants map | invariant by induction over operation lists; decision logic; witnesses where the code breaks it |
| C12 | `readyAdded` flags as a transition system | invariant + eventual-callback by ranking |
| C13 | `container/heap` + `subqueue.go` index bookkeeping over lists | permutation, heap order, index consistency for all arrays |
| C14–C18 | `limiter` package: groups map, counts, callback as a function, second-of-day as a parameter; string parser | step lemmas, induction over histories, round trip |
| C19–C21 | `rp.Protector` as a transition system whose steps are the critical sections | invariants over reachable states; witnesses for Shutdown and negative requests |
| C22 | server mode flags | refinement to a counter spec |
| C23–C26 | job life cycle: the job fields used by jstart/jarchive/jrelease/jbury, UntilBuried as `UInt8` | induction over attempts; decision logic |
| C27–C29 | bolt buckets as maps, transactions as atomic steps, pending asynchronous writes as a bag | invariants over histories with crash at any prefix |
| C30 | deleteJobs loop over a dependency graph | induction on rounds; characterisation by greatest fixpoint |
| C31 | limitJobs pipeline over lists | list induction |
| C32 | sgroup arithmetic | outright |
| C33 | per-job noted groups × limiter | invariant over life cycle |
| C34,C35 | strings as `List Char` | round trip, injectivity / collisions by witness |
| C36 | storeBatched arithmetic | concatenation of batches = input |
| C37–C41 | utils.go functions over byte lists / integers | list induction, arithmetic |
| C42 | Schedule coalescing as a transition system | invariant, witness of a lost update |
| C43,C44 | local scheduler bookkeeping | invariant over histories, witness for the reschedule bug |
| C45,C46 | cloud server accounting and death row | invariant, iteration, witness |
| C47 | behaviours as bit flags | list lemmas |
| C48 | bsubresource tokens/AST | print–parse round trip by structural induction |
| C49–C51 | selection functions | fold invariants |
| C52 | end-of-run classification | outright case analysis |
| C53 | Convert field by field | outright |
| C54–C147 | properties that came up while modelling the above; they use the same models | as above |

Nothing in the list is regarded as inexpressible; parts that live in the runtime (actual time passing, the OS, bolt's own
crash atomicity, hash functions, codecs, floating point) are parameters or assumptions recorded below.


## Plan and result per property

For each property: the modules with its model and proof, what was proved, and the theorems (in namespace `Verif`). A claim whose
status is *partial* keeps the full statement in `properties.jsonl`; where the code does not have the property, a theorem with
`violated` in its name proves it on the model. The axioms a theorem depends on are in brackets: p for `propext`, q for
`Quot.sound`, c for `Classical.choice`.

### C01 Every queued item is in exactly one sub-queue, the one its State() reports (partial)

Modules: `Queue/Props`.
Holds for every history that does not give an empty dependency list to a non-dependent item with outstanding dependencies (all histories without Update in particular); the full statement is false of the code: C01_violated, C01_violated_panic.

* `Queue.C01_partial` [p, q, c] – C01, for all histories in which no `Update` call gives an empty dependency list to an item that has outstanding dependencies but is not in the dependent sub-queue (such a call breaks it: `C01_violated`).
* `Queue.C01_no_panic_partial` [p, q, c] – C01, absence of panics: under the same condition, and if no `Update` re-sorts the wrong reserve group (`Fresh`, see `C02_violated`), no operation panics.
* `Queue.C01_noUpdate_partial` [p, q, c]
* `Queue.C01_violated` [p, q] – C01 fails: after this history item 0 is in the ready and in the bury sub-queue.
* `Queue.C01_violated_panic` [p, q] – A shorter history on which the same defect panics.

### C02 Reserve hands out the best ready item of the group (partial)

Modules: `Queue/Props`.
Holds unless an Update re-sorts with the reserve-group cursor left at another group; then it is false: C02_violated.

* `Queue.C02_partial` [p, q, c] – C02: for histories that hit neither of the two defects of `Update` (`Safe`, `Fresh`), `Reserve` returns a ready item of the group such that no other one is better, and moves it to the run sub-queue; it fails with `ErrNothingReady` exactly if there is none.
* `Queue.C02_noUpdate_partial` [p, q, c] – With a history free of `Update`, C02 needs no further condition.
* `Queue.C02_violated` [p, q]
* `Queue.C02_violated_panic` [p, q] – the same defect can panic: here the group used last has fewer items than the position of the updated one

### C03 An item is reserved by at most one caller at a time (proved)

Modules: `Queue/Props2`.

* `Queue.C03` [p, q, c] – C03: if two `Reserve` calls of a history return the same item, then between them there is an operation that takes the item off its first reserver (the item is in the run sub-queue until then).

### C04 An item with dependencies is not reservable until every dependency was removed (proved)

Modules: `Queue/Props3`.

* `Queue.C04` [p, q, c] – C04: an item added with dependencies stays in the dependent sub-queue (until it is removed itself), and so cannot be reserved, as long as one of them is outstanding - for histories that do not change its dependencies by `Update`.

### C05 Removing the last outstanding dependency makes the dependent ready at once (partial)

Modules: `Queue/Props3`.
Holds if no item is renamed to a key somebody waits for; false otherwise (C05_violated), and Kick can strand an item (C05_violated_kick).

* `Queue.C05_partial` [p, q, c] – C05: if an item added with dependencies `D` has exactly one outstanding dependency `k`, then a successful `Remove(k)` (of another item) makes it ready at once. For histories in which no item is renamed to a name that some item waits for, nor is renamed while waiting for itself (`CleanRename`; see `C05_violated`).
* `Queue.C05_violated` [p, q] – C05 fails after a rename onto an awaited name: "w" waits for "new" (not yet in the queue) and "v" for "old"; "old" is renamed to "new"; removing "new" frees "v" but not "w", which stays dependent although nothing it waits for is left.
* `Queue.C05_violated_kick` [p, q] – A related defect: `Kick` looks at all dependencies ever given, not at the outstanding ones. The item "d" waits for "a"; "a" is removed, "d" runs and is buried; then a new "a" is added and "d" is kicked: it goes to the dependent sub-queue with nothing outstanding, and removing "a" does not free it.

### C06 Adding an existing key changes nothing and AddMany counts correctly (proved)

Modules: `Queue/Props`.

* `Queue.C06_add_existing` [p, q] – C06, `Add` of a present key, in any state.
* `Queue.C06_addMany` [p, q, c] – C06, `AddMany`: every state of a safe history, every list of definitions. `added + dups` is the number of definitions; `added` is the number of items the queue grew by; present keys keep their item, unchanged; every other key among the definitions is now present with the values of its *first* definition; no other key appears.
* `Queue.C06_addMany_twice` [p, q, c] – C06: the same definitions a second time add nothing (at any later clock reading).

### C07 Operations succeed exactly in their documented state and failures have no effect (partial)

Modules: `Queue/Props`.
The failing half holds in every state (C07_failures); the succeeding half for histories free of the Update defects (they can panic: C01_violated_panic, C02_violated_panic).

* `Queue.C07_partial` [p, q, c] – C07: an operation either fails with exactly the error of the table `expectErr`, without any effect, or succeeds. (All states of safe histories; that it does not panic needs `Fresh` as in C01.)
* `Queue.C07_failures` [p, q] – The failing half of C07 needs no hypothesis at all: in any state whatever.

### C08 A delayed item becomes ready only when its delay has elapsed, and then all due items do (proved)

Modules: `Queue/Props`.

* `Queue.C08` [p, q, c] – C08: delay processing at time `now` makes ready exactly the delayed items whose ready time is before `now`, changes no other item, and tells the observers exactly about those.

### C09 A running item is timed out exactly when its TTR has passed without a Touch (proved)

Modules: `Queue/Props2`.

* `Queue.C09` [p, q, c] – C09: TTR processing at time `now` takes exactly the running items whose release time is before `now`; each goes to the sub-queue that the callback names (a "run" answer leaves it running, its release time a year ahead); all other items are unchanged.
* `Queue.C09_renewed` [p, q, c] – C09, the release time: a successful `Touch` or `Reserve` at time `t` sets it to `t` plus the item's TTR.
* `Queue.C09_lease` [p, q, c] – C09, nothing else changes the release time of an item that stays running: only `Touch`, an `Update` that changes the TTR, and TTR processing of the due item itself.

### C10 ChangeKey renames an item without losing it or its dependants (partial)

Modules: `Queue/Props3`.
Everything holds except that renaming to a key somebody waits for makes the queue forget those dependants (C10_violated), and a dependency that was given twice keeps the old key once (C10_violated_repeated).

* `Queue.C10_partial` [p, q, c] – C10: a successful `ChangeKey(old, new)` in any state of a safe history: the item is found under the new key and not under the old one, other keys are unaffected, every item is in the sub-queue it was in, only keys and dependencies change, and every other item that waited for `old` waits for `new` instead.
* `Queue.C10_dependants_partial` [p, q, c] – C10, the consequence for the dependants, for histories as in C05: an item that waited only for `old` becomes ready when `new` is removed. (This is C05 for the history with the rename in it; stated here for the direct case.)
* `Queue.C10_listed_partial` [p, q, c] – C10: the dependencies that another item lists (`Dependencies()`, by which Kick decides whether the item has to wait again) carry the new key in the place of the old, if none of them was given twice.
* `Queue.C10_violated` [p, q] – C10 fails for dependants if somebody already waits for the new name (see also `C05_violated`): after the rename "w" still waits for "new", but the queue has forgotten it.
* `Queue.C10_violated_repeated` [p, q] – the hypotheses are met, and a dependency given twice keeps the old key once

### C11 Update stores every value it was given (partial)

Modules: `Queue/Props2`.
Only the first differing of delay / (priority, size or group) / ttr is applied: C11_violated; C11_partial says what is stored.

* `Queue.C11_partial` [p, q, c] – C11, the part that holds: `Update` always stores the data; and it stores everything if at most one of (delay), (priority, group), (TTR) differs from what the item has and the update does not also clear the item's last dependencies. (`C11_violated` shows what happens otherwise.)
* `Queue.C11_violated` [p, q] – C11 fails when two of them differ: the delay is stored, the new priority, group and TTR are silently dropped.

### C12 The ready-added callback is never run concurrently and never misses ready items (proved)

Modules: `Queue/NotifyProps`, `Queue/Props2`.

* `Queue.C12_noticed` [p, q, c] – Whenever an operation puts an item in the ready sub-queue that was not there before, it calls `readyAdded`.
* `Queue.Notify.C12_single` [p, q] – C12, first half: at any moment of any history at most one callback run is going on.
* `Queue.Notify.C12_told` [p, q] – C12, second half: after any history, if nothing that the queue itself still has to do is left (all calls returned, all goroutines ended), then every ready item has been passed to a callback run that started after it became ready.
* `Queue.Notify.C12_ends` [p, q] – C12, and the queue gets there: without further operations by its users the queue can only take finitely many steps, however they are scheduled (so, by `C12_told`, every item that stays ready is passed to a callback run).

### C13 The priority sub-queues are correct indexed heaps (proved)

Modules: `Heap/Props`.

* `Heap.C13` [p, q, c] – C13: after any legal sequence of calls on an initially empty heap, with any order: no call panics; the slice has no repetition and every stored item records its exact position; and a further legal call does not panic and does what the specification says - in particular `pop` takes out an item that no stored item precedes, and `remove` takes out the item asked for.
* `Heap.C13_sorted` [p, q, c] – Sorting: popping everything gives a permutation of what was stored, in order.

### C14 A limit group's count never goes over its limit and Increment is all or nothing (partial)

Modules: `Limiter/Props`.
Increment is all or nothing and counts stay within limits for lists without duplicate names; false for a list naming a group twice (C14_violated_duplicate), and holders admitted before a group had a limit are not counted (C14_violated_new_limit).

* `Limiter.C14_partial` [p, q, c] – C14. After any proper history on a new limiter, `Increment(names)` succeeds exactly if every counted group in the list has fewer holders than its limit and every window group in the list admits (`canIncrement`; see C17 for the windows); if it succeeds then every counted group in the list has at most `limit` holders, the caller included; if it fails, nothing changes (same effective data for every group, same holders).
* `Limiter.C14_holders_partial` [p, q, c] – C14, the consequence: while limits are not changed, no group ever has more holders than its limit.
* `Limiter.C14_violated_duplicate` [no axioms] – C14 fails when a name is repeated in the list: the limit is 1 and a single `Increment` counts 2.
* `Limiter.C14_violated_new_limit` [p] – C14 fails when a limit is given to a group that has holders from the time it had none: two `Increment`s made while the limit is 1 are both held.

### C15 Decrement undoes one Increment and never frees a slot that is not held (proved)

Modules: `Limiter/Lowest`, `Limiter/Props`.

* `Limiter.C15_undo` [p, q] – C15: `Decrement(names)` right after a successful `Increment(names)` restores the count of every group, in any state whose counts are not negative.
* `Limiter.C15_nonneg` [p, q] – C15: no sequence of calls whatever (repeated names, unheld releases, any limits, any callback that has no negative counts) makes a count negative.
* `Limiter.C15_unknown` [p] – C15: groups that are not known are ignored.
* `Limiter.C15_forgotten` [p, q, c] – C15: whoever gives back the last slot of a group makes the limiter forget the group: nothing is kept of groups that nobody uses.

### C16 GetRemainingCapacity is exactly the number of further Increments that succeed (partial)

Modules: `Limiter/Lowest`, `Limiter/Props`.
Holds for lists of counted groups; false when the list holds an open time window (C16_violated). GetLowestLimit is right for counted groups; for a time window it gives the window's end (C16_violated_lowest).

* `Limiter.C16_partial` [p, q] – C16, for lists of names without repetition and without an open time window (an open window reports capacity -1, which the loop confuses with "no limit seen yet": `C16_violated`). The clock is the same for all calls.
* `Limiter.C16_violated` [p] – C16 fails with an open time window: capacity -1 ("no limit") is reported although only one `Increment` is possible; and the answer depends on the order of the names.
* `Limiter.C16_lowest_partial` [p, q, c] – C16: `GetLowestLimit` is the lowest limit of those of the groups that have one, and -1 if none has. Missing: groups that are time windows.
* `Limiter.C16_violated_lowest` [no axioms] – C16 is false of time windows: their limit is said to be the end of the window in seconds, so the lowest limit of a group of 100000 and the window up to 10:00 is said to be 36000.

### C17 A time-window limit group is open exactly inside its window (partial)

Modules: `Limiter/Props`.
Holds for every window that does not cross midnight and for datetime windows; for every overnight window it is false (C17_violated).

* `Limiter.C17_partial` [p, q, c] – C17, for windows that do not pass midnight.
* `Limiter.C17_violated` [p, q, c] – C17 fails for every window that passes midnight, at every moment except its end points: the group is open exactly when it should be closed.

### C18 Limit group names are parsed unambiguously (proved)

Modules: `Limiter/ParseProps`.

* `Limiter.C18_windows` [p, q, c] – C18: a name that spells a window is parsed to that window, and keeps its full name.
* `Limiter.C18_only` [p, q, c] – C18, converse: a name gets group data only if it spells a window (then it keeps its full name), or it is a name without `:`, a colon and an integer (then it gets that count as limit, and loses the suffix).
* `Limiter.C18_count` [p, q, c] – C18: `name:n` (name without colon, n a 64-bit integer) is the group `name` with limit `n` (no valid limit if n is negative).
* `Limiter.C18_plain` [p, q, c] – C18: a name without a colon is a plain name with no limit of its own.
* `Limiter.C18_unambiguous` [p, q, c] – C18, unambiguity: the windows spelled by a name are one.
* `Limiter.C18_dates` [p, q, c] – C18, dates: the dates and times accepted in windows are those of the calendar.

### C19 Granted tokens never exceed the maximum (partial)

Modules: `Rp/Props`.
Holds without Shutdown and negative requests; both break it.

* `Rp.C19_partial` [p, q, c] – C19, without Shutdown and without requests for a negative number of tokens (both make it false: see below).
* `Rp.C19_violated_shutdown` [p, q] – C19 is false with Shutdown: requests that are waiting when it is called are granted afterwards, and `usedTokens`, which it resets to 0, goes negative when the released tokens are returned, so more than the maximum is handed out.
* `Rp.C19_violated_negative` [p, q] – C19 is false with negative requests, which are accepted.

### C20 Token requests are granted in the order they were made, each at most once (partial)

Modules: `Rp/Props`, `Rp/Props4`.
Order and finality (as told by Granted) hold in full; WaitUntilGranted can return true for tokens already taken back (C20_violated_wait).

* `Rp.C20_order` [p, q, c] – C20: the granted receipts, in the order of granting, are strictly increasing in the order of their requests: so requests are granted in the order made, and none twice.
* `Rp.C20_final` [p, q, c] – C20: a receipt handed out in a history that was granted and then released (by Release or the release timeout), or that was not granted when its `WaitUntilGranted` timed out, is in no later state reported as granted by `Granted`.
* `Rp.C20_released` [p] – C20: once a granted request is released, one is told that it is not granted and that there is no point in asking again.
* `Rp.C20_violated_wait` [p, q] – C20 is false of `WaitUntilGranted`: it can return true for a receipt whose tokens have been taken back by the release timeout (and given to somebody else), when the waiting caller is slow to run.

### C21 Grants are spaced by at least the configured delay (partial)

Modules: `Rp/Props2`.
Holds if a started process runs before anything else happens; false in general.

* `Rp.C21_partial` [p, q, c] – C21, for prompt histories: any two grants are at least the delay apart. In general it is false (below).
* `Rp.C21_violated` [p] – C21 is false in general: a `reprocess` that has woken up gives up the lock before it calls `process`; a second one started in between passes too, and the two `process` calls grant two requests at the same time.
* `Rp.C21_violated_start` [p] – And at the very start: the first request is processed without a delay, but maybe late, while the second waits only from the moment of its own request.

### C22 Pauses nest, drain is final (proved)

Modules: `Server/ModesProps`.

* `Server.C22_modes` [p, q, c] – **C22.** After any sequence of Pause, Resume and Drain calls on a server that was just started, every call returned what the specification says, and jobs can be reserved iff there was no Drain and no pause is outstanding.
* `Server.C22_drain_final` [p] – **C22, drain is final.** After a Drain, whatever calls come before or after it (Stop included), nothing can be reserved.

### C23 A failing job is run Retries+1 times and then buried (proved)

Modules: `Server/LifeProps`.

* `Server.C23_retries` [p, q, c] – **C23.** A job added with `r` retries (any byte) and then left alone stays in the queue; it is buried iff exactly `r + 1` of its runs have failed, and until then at most `r` have. Releases of runs whose command was not started are not counted. All this whatever happens to other jobs, and whatever reservations, starts, releases, kills and time-outs happen to this one.
* `Server.C23_kick` [p, q, c] – **C23 (kick).** A kicked job is given all its tries again.

### C24 Only the client that reserved a running job can change it (partial)

Modules: `Server/LifeProps`.
Ownership and running checks hold in full; jrelease/jbury do not check that the job is running, so an earlier owner's late request can move a job (C24_violated).

* `Server.C24_owner` [p, q, c] – **C24 (owner).** jstart, jtouch, jarchive, jrelease and jbury requests for a job that is not in the queue, or by a client that is not the one that reserved it last, are refused and change nothing.
* `Server.C24_running` [p, q, c] – **C24 (running).** jstart, jtouch and jarchive requests for a job that is not in the run sub-queue are refused with ErrBadJob and change nothing.
* `Server.C24_release_partial` [p, q, c] – **C24 (partial: jrelease and jbury).** Release and bury requests for a job that is not in the run sub-queue never move it to another sub-queue, and leave all other jobs alone. Missing: that they are refused without any effect; see `C24_violated`.
* `Server.C24_violated` [no axioms] – **C24 is violated** for jrelease: client 1 reserves a job but does not start it in time, so it goes to the delay sub-queue. The late release request of client 1 is accepted and changes the job, although it is not running.

### C25 Every request without the right token is refused without effect (proved)

Modules: `Server/AuthProps`.

* `Server.Auth.C25_match` [p, q, c] – **C25, tokens.** Two tokens match exactly if they are the same bytes.
* `Server.Auth.C25_denied` [p, q, c] – **C25, requests.** A request other than ping with a token that is not the server's is answered with "permission denied", and changes nothing.
* `Server.Auth.C25_allowed` [p, q, c] – **C25, conversely.** With the server's token no request is denied; a ping never is, and it changes nothing.
* `Server.Auth.C25_http` [p, q, c] – **C25, HTTP.** Every end point but the version and the static files refuses, without any effect, a request that does not present the server's token, as parameter or bearer token, and acts on those that do.

### C26 A job is archived only after it was run successfully, exactly once (proved)

Modules: `Server/LifeProps2`.

* `Server.C26_archive` [p, q, c] – **C26.** In any history, an archive request by client `c` for job `k` is accepted only if the job is running, client `c` is the one that reserved it and reported its start since then, and the exit code it reported is 0. Afterwards the job is in the complete store, and is neither in the queue nor in the live store.
* `Server.C26_once` [p] – **C26, exactly once.** While the job has not been added again, every further archive request for it, by any client, is refused.

### C27 After a crash at any point every accepted job is either live or complete, never lost and never both (partial)

Modules: `Server/DbProps`.
Holds at every crash point if no two requests about the same job overlap; false when an add overlaps a delete or an archive of the same job.

* `Server.Db.C27_partial` [p, q, c] – C27, for requests about the same job that do not overlap: after any history, including crashes at any point and whatever the batches and the delays of the asynchronous writes, what a client was told is so, in the database (which is all that is left after a crash) and in the queue: an added job is live and queued, an archived one is complete and neither live nor queued, a deleted one is neither live nor queued.
* `Server.Db.C27_never_lost` [p, q] – C27, never lost: without delete requests, and however requests overlap and whenever the manager crashes, a job that is in the database stays there, live or complete.
* `Server.Db.C27_violated` [p, q] – C27 fails when a delete and an add of the same job overlap: the add is acknowledged and the job is queued, no request is in progress, but the database does not have the job, and a crash loses it.
* `Server.Db.C27_violated_archive` [p, q] – C27 fails when an archive and an add of the same job overlap: the add is acknowledged and the job is live, but it is in no queue, so it is not run (until the next restart).

### C28 Delayed asynchronous writes never bring a finished job back (proved)

Modules: `Server/DbProps`.

* `Server.Db.C28` [p, q] – C28: a job that is not in the live bucket (archived, deleted or never added) does not get there by anything but an add request for it: whatever the scheduled writes, however long they are delayed and in whatever order they, other requests and crashes are executed.

### C29 Recovery puts jobs back where they were (partial)

Modules: `Server/RecoverProps`.
Recovered items have the recorded data and exactly the incomplete dependencies; buried and running jobs keep their state only when they have no incomplete dependency: the exception is proved as a violation.

* `Server.Recover.C29_deps` [p, q, c] – C29, the dependencies: the keys found are exactly those of the incomplete jobs that the job depends on, by name or through a dep group, whatever the dep groups are called.
* `Server.Recover.C29_partial` [p, q, c] – C29: the queue of a restarted server holds exactly the live jobs, with their data; those that wait, wait exactly for their incomplete dependencies; and each is in the right sub-queue, unless it is recorded as running or buried and has incomplete dependencies (then it is with the dependent ones, see `C29_violated`).
* `Server.Recover.C29_violated` [p, q, c] – C29 fails for buried and for running jobs with incomplete dependencies.

### C30 Deleting jobs never deletes a running job or strands a dependent (partial)

Modules: `Server/DeleteProps`.
Holds for a request that runs alone; concurrent adds and updates with stale data violate it, and jobs in a circle of dependencies are never deleted.

* `Server.Delete.C30_partial` [p, q, c] – C30, when nothing else changes the queue during the request: from the queue of every history of operations in which keys are not changed (and dependencies replaced only while the outstanding ones are in the queue), and for every list of keys in any order, the jobs deleted are exactly the requested ones that can be deleted; every other job is still there, unchanged: in particular no job became ready because what it waits for was deleted.
* `Server.Delete.C30_violated_race` [p, q] – C30 fails when a job is reserved after the request looked at its state and before it is removed: the job is deleted while a client runs it.
* `Server.Delete.C30_violated_stale` [p, q, c] – C30 fails when a job waits for a job that is not in the queue, is given other dependencies, and the job it first waited for is then added: nothing waits for that job, but it cannot be deleted.
* `Server.Delete.C30_circle` [p, q] – Jobs that depend on each other in a circle cannot be deleted, even all at once.

### C31 Filtering and limiting of job listings is exact (partial)

Modules: `Server/ListingProps`.
Exact for every filter but deletable; deletable returns running jobs, and without a limit and a state the fail reason is ignored.

* `Server.Listing.C31_limit_partial` [p, q, c] – C31, with a limit, for all filters except "deletable": of every group, the jobs returned are those that are asked for, in the original order, without the first `offset` and at most `limit` of them; the last one has `Similar` raised by the number of further jobs of the group. This holds whatever the order in which the groups come.
* `Server.Listing.C31_filter_partial` [p, q, c] – C31, without a limit but with a state filter other than "deletable": the jobs returned are exactly those asked for, in the original order.
* `Server.Listing.groupName_inj` [p, q, c] – The name of a group determines the group.
* `Server.Listing.C31_violated_deletable` [p] – C31 fails for "deletable": running jobs are returned.
* `Server.Listing.C31_violated_reason` [p, q, c] – C31 fails without a limit and a state: the fail reason asked for is not looked at.

### C32 Scheduler group bookkeeping never counts jobs it does not have (proved)

Modules: `Server/SgroupProps`.

* `Server.Sgroup.C32_decrement` [p, q, c] – **C32, one call.** A drop of `d > 0` takes skipped jobs first, then counted ones, never goes below zero, and answers the new count, or -1 if the count did not change. Other drops do nothing.
* `Server.Sgroup.C32_total` [p, q, c] – **C32, totals.** The jobs the group has left after a drop: what there was, less the drop, and never less than none.
* `Server.Sgroup.C32_sum` [p, q, c] – **C32, histories.** Any sequence of drops is the same as one drop of their sum.

### C33 A reserved job holds one slot of each of its limit groups until it ends (partial)

Modules: `Server/LifeProps`.
Holds without the dependency update of createJobs and without refused archive requests; both break it.

* `Server.C33_partial` [p, q, c] – **C33 (partial).** In every history of requests and time-outs in which no archive request is refused as bad and no queued job has dependencies added, the slots counted for a limited group are exactly the running jobs in that group: each such job is counted once, from the moment it is reserved until it leaves the run sub-queue in whatever way, and nothing else is counted. Missing: the two excluded cases, see `C33_violated_dependency` and `C33_violated_archive`.
* `Server.C33_limit_partial` [p, q, c] – **C33 (limit; partial).** Under the same exclusions the running jobs in a group never exceed its limit.
* `Server.C33_violated_dependency` [no axioms] – **C33 is violated** when a job is added to a dependency group that a running job depends on: the running job's data is replaced, and its slot is never given back, so the group (limit 1) is blocked although nothing runs in it.
* `Server.C33_violated_archive` [no axioms] – **C33 is violated** when an archive request is refused because the end state is missing or incomplete: the slot is given back while the job goes on running, and a second job of the group (limit 1) can be reserved.

### C34 Scheduler group names carry their limit groups (partial)

Modules: `Server/GroupsProps`.
Holds exactly for names without ',' and requirement strings without '~'.

* `Server.Groups.C34_partial` [p, q] – **C34 (partial: names without separators).** The limit groups found in a scheduler group's name are the job's, in order. Missing: names with a comma or a tilde, for which it is false: `C34_iff`.
* `Server.Groups.C34_iff` [p, q] – **C34, exactly when it fails.** The limit groups found in the name are not those of the job as soon as one of them has a comma or a tilde in its name.
* `Server.Groups.C34_violated_comma` [p, q] – **C34 is violated**: a job in the limit group "a,b" is counted in the groups "a" and "b".
* `Server.Groups.C34_violated_tilde` [p, q] – **C34 is violated**: a job with limit groups "a" and "b~c" is not limited at all.

### C35 Different jobs have different keys (partial)

Modules: `Server/KeysProps`.
Holds up to the hash and for directories and images that cannot be confused with the command; not in general.

* `Server.Keys.C35_partial` [p, q, c] – **C35 (partial: jobs that differ in one respect).** Jobs that differ in exactly one of the things that identify them are given different strings to hash. Missing: jobs that differ in several; there it is false: `C35_violated_dir`, `C35_violated_image`.
* `Server.Keys.C35_violated_dir` [p, q, c] – **C35 is violated**: command `b.c` in directory `/a` has the key of command `c` in directory `/a.b`.
* `Server.Keys.C35_violated_image` [p, q, c] – **C35 is violated**: a command run in a container has the key of another one run without.

### C36 Bulk database writes store every record exactly once (proved)

Modules: `Utils/BatchProps`.

* `Utils.C36_once` [p, q, c] – C36: whatever the number of records and whichever calls of the storer fail, storeBatched does not panic; if it returns no error, then what the storer was given, in all its calls together, is every record once and in order; it returns an error only if the storer did, and then a first part of the records has been stored, each once.
* `Utils.C36_ok` [p, q, c] – Without failures of the storer there is no error.

### C37 Stored output keeps the exact head and tail (proved)

Modules: `Utils/SaverProps`.

* `Utils.C37_saver` [p, q] – C37: however the output is cut into writes, writing ends, and what is kept is all of it if it is at most 2N bytes, and otherwise its first N bytes, a note with the number of the other bytes, and its last N bytes.

### C38 Progress-bar filtering only drops carriage-return progress (partial)

Modules: `Utils/FilterProps`.
Holds for text without carriage returns and for progress whose last piece is ended by one; what follows the last carriage return of a line is lost.

* `Utils.C38_plain` [p, q, c] – C38, text without carriage returns: it passes through unchanged, whatever its lines are and whether or not it ends with a newline.
* `Utils.C38_partial` [p, q, c] – C38 for a stream of plain lines and of progress of two or more pieces whose last piece is ended by a carriage return too, followed by an unfinished plain line: exactly what should be kept is kept.
* `Utils.C38_violated` [p, q, c] – C38 fails: what follows the last carriage return of a line is dropped, even if it is the message the progress bar was cleared for.
* `Utils.C38_violated_crlf` [p, q, c] – C38 fails: lines ended by carriage return and newline, without any progress, are run together.

### C39 Environment overrides win and nothing else changes (partial)

Modules: `Utils/EnvProps`.
Holds for original environments without a name twice; false otherwise.

* `Utils.C39_partial` [p, q, c] – C39 for an original environment that has no name twice: whatever the order in which Go goes through its map, for every name the process sees the (last) override if there is one, and what the original said otherwise.
* `Utils.C39_once_partial` [p, q, c] – C39 for an original environment that has no name twice: the result has no name twice.
* `Utils.C39_rest_partial` [p, q, c] – C39, and what is not overridden stays where it was.
* `Utils.C39_violated` [p, q, c]

### C40 Scheduler requests are never smaller than the job needs (proved)

Modules: `Utils/ReqProps`.

* `Utils.C40_enough` [p, q, c] – C40: for every time that is a Go duration (64 bits), not within half an hour of the largest or the smallest, the request has at least the memory, at most 100 MB more; the time is the least whole number of half hours that is enough; cores, disk and other requirements are those of the job.

### C41 Release delay backs off and is bounded (partial)

Modules: `Utils/ReqProps`.
The upper bound is the maximum plus the minimum, not the maximum; with 255 retries the first delay is the longest.

* `Utils.C41_partial` [p, q, c] – C41: for every number of earlier runs and whatever the random part `j`, the delay is at least the backoff, and less than half a minute longer; so it is at least the minimum, and at most the maximum plus the minimum.
* `Utils.C41_grows` [p, q] – C41: the backoff does not decrease, and doubles until it reaches the maximum.
* `Utils.C41_attempt_partial` [p, q] – The byte arithmetic of setItemDelay: for a job with fewer than 255 retries whose `k`-th run starts (`k ≤ Retries` runs having failed before), the attempt number is `k`.
* `Utils.C41_violated_max` [no axioms] – C41 fails: the delay can be more than the maximum.
* `Utils.C41_violated_255` [p, q, c] – C41 fails for jobs with 255 retries: the first failure is followed by the longest delay, the second by one of at most a minute and a half.

### C42 The last Schedule() count wins (partial)

Modules: `Sched/ScheduleProps`.
Holds if no call is made between the end of an earlier call and the start of the goroutine it leaves behind; false otherwise.

* `Sched.C42_partial` [p, q] – C42, if no user calls `Schedule` for the command in the time between the end of an earlier call and the start of the goroutine it leaves behind: when the calls have settled, the count in force is that of the last call made.
* `Sched.C42_exclusive` [p, q] – In every interleaving `impl.schedule` runs at most once at a time for a command.
* `Sched.C42_settles` [p, q] – Once no more calls are made for any command, the calls settle whatever the order of the remaining steps: there is a bound on the number of steps left for any one command, and unless the command has settled a step is possible.
* `Sched.C42_violated` [p, q] – C42 does not hold in general: five runs are asked for, then three, then seven, and when all has settled three are in force.

### C43 The local scheduler never over-commits RAM or cores (partial)

Modules: `Sched/LocalProps`.
Holds if no command takes longer than a minute to start; false otherwise. Cores are exact numbers in the model.

* `Sched.Local.C43_partial` [p, q, c] – C43, if no command takes longer than a minute to start: at every moment of every history, the RAM and cores of the running commands do not exceed the maxima, and neither does the number of those that need no core.
* `Sched.Local.C43_fits` [p, q] – Requirements that are accepted can be met: with nothing running, at least one such command can be run.
* `Sched.Local.C43_zero_ram` [p] – A command that asks for no RAM is accepted and can never be run.
* `Sched.Local.C43_violated` [p, q] – C43 does not hold if starting a command takes more than a minute: of a machine with 10 MB, 20 MB are then used.

### C44 The local scheduler runs a command exactly as often as asked (partial)

Modules: `Sched/LocalProps2`.
Holds for histories that avoid three defects, each proved as a violation.

* `Sched.Local.C44_partial` [p, q] – C44, for histories that avoid what `Calm` excludes: runs begin only as far as they are wanted, and the scheduler's books agree with what a user expects: the runs in progress and the number of runs still scheduled are those of the ledger.
* `Sched.Local.C44_begins_partial` [p, q, c] – C44, the runs that are wanted are begun: when `processQueue` comes to look at the command, it begins as many of the runs still missing as there is room for; a command with none wanted and none in progress is forgotten.
* `Sched.Local.C44_violated_cancel` [p] – C44 fails when a command is cancelled and scheduled again while a run is in progress: after that run has ended, four of the five runs asked for are still to be made, but the command is forgotten.
* `Sched.Local.C44_violated_race` [p] – C44 fails when the last run ends during a call of `schedule`: the five runs asked for are never made.
* `Sched.Local.C44_violated_broken` [p] – C44 fails when a run breaks on starting after the count was lowered: a run is begun that nobody wants.

### C45 A cloud server is never allocated beyond its flavor (proved)

Modules: `Cloud/ServerProps`.
Cores are exact numbers in the model, where the code rounds floats.

* `Cloud.C45_fits` [p, q, c] – C45: in any history, what is allocated and not released fits on the server.
* `Cloud.C45_space` [p, q, c] – C45: `HasSpaceFor` returns the number of further identical allocations that succeed.
* `Cloud.C45_undo` [p, q] – C45: `Release` undoes `Allocate`.
* `Cloud.C45_flavor` [p] – C45: an empty server of a flavor has space for as many commands as the flavor says, if it has cores.

### C46 A cloud server is not destroyed while it is in use (partial)

Modules: `Cloud/ServerProps2`.
Holds for histories that avoid three defects, each proved as a violation.

* `Cloud.C46_partial` [p, q, c] – C46, for histories in which commands need a core or memory, no allocation is made between the end of the countdown and the destruction, and Go prefers a cancellation to the timer: a destroyed server has no allocations. Missing: the other histories, for which it is false (below).
* `Cloud.C46_violated_choice` [p, q] – The code violates C46: the time is up and a cancellation waits; Go may choose the timer, and then destroys the server on which a command runs.
* `Cloud.C46_violated_marked` [p, q] – The code violates C46: the server is marked as to be destroyed, then a command is allocated to it (`Allocate` does not look at that mark), then it is destroyed.
* `Cloud.C46_violated_zero` [p, q] – The code violates C46: a command that needs no core and no memory is allocated before the goroutine that found the server idle takes the lock; that goroutine looks at cores and memory only, and the server is destroyed.

### C47 Behaviours run in the documented order for the exit status (partial)

Modules: `Client/BehavioursProps`.
Order and errors proved in full; 'each once' and the round trip fail for behaviours with combined triggers, proved as violations.

* `Client.C47_order` [p, q] – C47: what is carried out, in order, whatever fails.
* `Client.C47_error` [p, q] – C47: an error is returned if and only if something that was to be carried out failed, or could not be carried out.
* `Client.C47_once_partial` [p, q] – C47, for behaviours that are not at once for any exit and for success or failure: each behaviour in the list that is for this end is carried out as often as it is in the list, and the others not at all. Missing: the behaviours with both, which are carried out twice (below).
* `Client.C47_violated_twice` [p, q] – The code violates "each once": a behaviour for any exit and for success is carried out twice.
* `Client.C47_json` [p, q, c] – C47: behaviours survive the trip to JSON and back: for each of failure, success and exit the behaviours for it are the same, in the same order.
* `Client.C47_json_partial` [p, q, c] – C47: hence, if each behaviour is for exactly one of failure, success and exit, the behaviours read back do the same as the original ones. Missing: behaviours for failure and success, which the JSON form of a job has no key for (below).
* `Client.C47_violated_json` [p, q] – The code violates the round trip: a behaviour for failure and success is printed under a key that the JSON of a job does not have, and is gone when that is read.
* `Client.C47_remove` [p, q] – C47, removal: a job whose behaviours have "remove" among them, for whatever kind of end, is one that the server deletes when it buries it; no other is.
* `Client.C47_violated_remove` [p, q] – "remove" for success only still counts when the job is buried

### C48 Rewriting LSF resource strings preserves their meaning (partial)

Modules: `Bsub/Again`, `Bsub/Props`, `Bsub/Space`.
Round trip for every string that parses, but for an exclamation mark on its own before = or == (C48_violated_bang). Rewriting, read back from the printed text, for sections whose name is a plain word and where no later clause starts with a parenthesis (C48_violated_call). Strings the tokeniser cannot read to the end are cut without an error (C48_violated_dropped), mem on the right of a comparison is kept (C48_violated_reversed), alternatives in braces are treated as select or not at all (C48_violated_braces). Rewriting twice is rewriting once; what names neither mem nor hosts, and other sections, are left alone.

* `Bsub.C48_roundtrip_partial` [p, q, c] – C48, printing: the text of what was parsed is parsed as the same.
* `Bsub.C48_normal_partial` [p, q, c] – and so printing is a normal form: whatever is parsed from the printed text prints as the same text
* `Bsub.C48_rewrite_partial` [p, q, c] – C48, rewriting: the text after `ReplaceMemoryAndHosts` can be parsed. In what is parsed from it every comparison of `mem` in `select` and `rusage`, and of `hosts` in `span`, has the wanted operator and value. All the rest is as it was.
* `Bsub.C48_again` [p, q, c] – C48: rewriting a second time, with the same values, changes nothing.
* `Bsub.C48_unmentioned` [p, q, c] – C48: requirements that name neither `mem` nor `hosts` stay as they are.
* `Bsub.C48_sections` [p, q, c] – C48: clauses of sections other than `select`, `rusage` and `span`, and clauses without a section that are not the first, stay as they are, whatever they say.
* `Bsub.C48_space` [p, q, c] – C48: blanks, tabs and ends of lines, of either kind, before requirements do not matter.
* `Bsub.C48_violated_bang` [p, q, c] – an exclamation mark before `=` is printed without the space that kept them apart, and cannot be parsed any more
* `Bsub.C48_violated_dropped` [p, q, c] – a character that no token starts with ends the string, without an error: what follows is lost from the request to LSF
* `Bsub.C48_violated_reversed` [p, q, c] – a comparison with `mem` on the right is left as it was
* `Bsub.C48_violated_braces` [p, q, c] – alternatives in braces are all treated as `select`, so `rusage` gets a comparison instead of an amount; and with factors they are not treated at all
* `Bsub.C48_violated_call` [p, q, c] – the value written in front of a clause in parentheses makes a function call of it

### C49 An LSF queue is chosen that can run the job (partial)

Modules: `Sched/LsfProps`.
Holds if named queues exist and where a queue has no limit the job wants no more than the number the code makes up for it; both are needed.

* `Sched.Lsf.C49_partial` [p, q] – C49, with the assumptions of `Plain`: unless the user names exactly one queue, the queue chosen is the first of the candidates that suits, and the error is given exactly when none does.
* `Sched.Lsf.C49_explicit` [p] – the user's own choice is taken as it is
* `Sched.Lsf.C49_safe` [p, q] – C49, with no assumption on limits and requests: the queue chosen is a candidate, is not to be avoided, and if it is one of the user's queues then no positive limit that it states is below what the job needs.
* `Sched.Lsf.C49_violated_unlimited` [p, q, c] – C49 is violated: a queue without a memory limit is refused if the job needs two MB more than the largest limit of the other queues: there is a queue that suits, and the user is told that the job is impossible.
* `Sched.Lsf.C49_violated_unknown` [p, q, c] – C49 is violated: in a list of queues given by the user, a name that is not that of a queue is taken as a queue without limits, although a later name suits.

### C50 The cheapest sufficient flavor is chosen (partial)

Modules: `Cloud/FlavorProps`.
CheapestServerFlavor in full; CheapestServerFlavors for sets without empty patterns, on which it panics.

* `Cloud.Flavors.C50` [p, q, c] – C50: for every order of iteration, `CheapestServerFlavor` returns a cheapest flavor that is big enough and matches the pattern, the error "no flavor" if and only if there is none, and an error about the pattern if and only if that is no regular expression; it does not panic.
* `Cloud.Flavors.C50_order` [p, q, c] – C50: the sizes of the flavor chosen do not depend on the order of iteration.
* `Cloud.Flavors.C50_sets_partial` [p, q, c] – C50, for sets without an empty pattern and not empty themselves: `CheapestServerFlavors` returns one result per set, a cheapest flavor of the set that is big enough and matches the pattern, nil if there is none; an error only if a pattern is no regular expression. Missing: empty patterns, for which it panics (below), and empty sets, which stand for all flavors.
* `Cloud.Flavors.C50_violated_panic` [p] – The code violates C50: an empty pattern in a set, as in the configured sets `a;` or `a,,b`, makes it panic.

### C51 Spawning never exceeds quota (partial)

Modules: `Sched/OpenstackProps`.
The quota in full, and the number is the greatest one; the configured maximum only if there is a quota of instances above it.

* `Sched.Openstack.C51_quota` [p, q] – C51: the servers that can be spawned according to `checkQuota` stay within the quota of instances, RAM, cores and volumes.
* `Sched.Openstack.C51_max_partial` [p, q] – C51, if there is a quota of instances and it is above the configured maximum: that is kept too. Missing: no quota of instances, for which it is false (below).
* `Sched.Openstack.C51_most` [p, q, c] – C51: and it is the greatest such number, zero if there is none.
* `Sched.Openstack.C51_violated_max` [no axioms] – The code violates C51: without a quota of instances the configured maximum is not looked at: with 5 servers and a maximum of 5, a million more may be spawned.

### C52 Execute reports success only for jobs it archived (partial)

Modules: `Client/ExecuteProps`.
The decision is characterised exactly; it differs from the property for failed uploads and for kills or late failures that coincide with a lack of resources or a signal. A nil error means archived if no upload failed; the converse fails when an answer is lost.

* `Client.C52_action_partial` [p, q] – C52, the decision, with what the code lets take precedence: archive if and only if the command exited 0 and no upload failed; bury if and only if hopeless, or killed or too late and neither starved nor signalled; else release. Partial: the property has no such exceptions (see the violations below).
* `Client.C52_once` [p, q] – C52: the server carries out at most one end action for a run, and it is the one decided on.
* `Client.C52_nil` [p, q] – C52: a nil error means that the command exited 0 and the server carried out what was decided.
* `Client.C52_partial` [p, q] – C52, if no upload failed: `Execute` returns nil only if the server archived the job. Missing: a failed upload, for which it is false (below).
* `Client.C52_violated_upload` [no axioms] – The code violates C52: the command exits 0, the upload of its output fails: the job is released, and `Execute` returns nil.
* `Client.C52_violated_kill` [no axioms] – The code violates C52: a job killed by request that uses more memory than expected is released, hence tried again.
* `Client.C52_violated_time` [no axioms] – The code violates C52: a job past its no-retry time that is stopped by a signal is released, hence tried again.
* `Client.C52_violated_lost` [no axioms] – The code violates the converse too: the job was archived, the answer got lost, and `Execute` returns an error saying that the job must be run again.
* `Client.C52_reason` [p] – C52, the reason: the fail reason given to the server is the one that the end of the command has
* `Client.C52_exitcode` [p] – the exit code told is the command's, 255 if it did not run to its end

### C53 Job JSON is converted with defaults applied field by field (partial)

Modules: `Server/ConvertProps`.
Holds for every field if no member is an empty string, an empty list or false; such members do not override defaults.

* `Server.Convert.C53_partial` [p, q, c] – C53, for JSON objects without members that are an empty string, an empty list or false: the job has what is given, else the default. Missing: such members, for which it is false (below).
* `Server.Convert.C53_refused` [p, q, c] – C53: a job is refused exactly if the command is empty, a number is out of range, a size or duration cannot be parsed, or the environment or script cannot be dealt with.
* `Server.Convert.C53_violated_false` [p, q, c] – The code violates C53: `"cwd_matters": false` does not override a default of true.
* `Server.Convert.C53_violated_empty` [p, q, c] – The code violates C53: `"deps": []` does not override the default dependencies.
* `Server.Convert.C53_negative` [p, q, c] – A negative number of cores, or of gigabytes of disk, is accepted.

### C54 The change callback is told exactly what happened (partial)

Modules: `Queue/Props2`.
All operations except Destroy.

* `Queue.C54_partial` [p, q, c] – C54: for every operation other than `Destroy`, the events passed to the change callback account exactly for where every item was before and is after the operation; no event names an item twice.
* `Queue.C54_violated_destroy` [p, q] – C54 is not met by `Destroy`: the items disappear without any event.

### C55 The limit set for a group is the limit in force (partial)

Modules: `Limiter/Store`.
Holds for limits that are not negative; -1 leaves the old limit in force and forgets the holders.

* `Limiter.C55_partial` [p, q] – C55, for histories in which nobody sets a negative limit: the limit in force for a group is the last one set, through jobs, slots taken and given back, questions and restarts.
* `Limiter.C55_violated` [p] – C55 is false for -1, documented to make the group unlimited: the old limit stays in force.
* `Limiter.C55_violated_holders` [no axioms] – And worse: trying to unlimit a group forgets its holders, so twice the limit can run.

### C56 A token request that waits is never forgotten (partial)

Modules: `Rp/Props2`, `Rp/Props3`, `Rp/Props4`.
C56_fits_partial: a request that fits is about to be looked at, unless a wait before it timed out (C56_violated_timeout). Otherwise holds for a positive maximum, without Shutdown and negative requests; progress unless the lock is lost as in C57/C58.

* `Rp.C56_partial` [p, q, c] – C56: while a request is pending there is always a goroutine on its way to look at the pending requests, or tokens that will be returned (and whose return starts such a goroutine).
* `Rp.C56_progress_partial` [p, q, c] – C56, progress: in every history without Shutdown, negative requests or a blocked `Touch`/timeout (C57, C58), the oldest pending request can be granted by the passing of time and the protector's own goroutines alone.
* `Rp.C56_fits_partial` [p, q] – C56: if the request whose turn it is fits in the tokens that are free, somebody is on the way to grant it: it does not have to wait for other tokens to be returned. Here for histories without Shutdown in which no wait times out.
* `Rp.C56_violated_zero` [p] – It is false with a maximum of zero, which is accepted: a request for no tokens is never granted.
* `Rp.C56_violated_timeout` [p] – C56 is violated when a wait times out: the request behind it fits in the tokens that are free, but nobody is on the way to grant it; it waits for tokens of others to be returned, or for another request to be made.

### C57 No sequence of calls blocks a Protector for ever (partial)

Modules: `Rp/Props2`, `Rp/Props4`.
Touching what is not granted has no effect (C57_touch). Otherwise false of the code: two timed waits for a receipt that is then released.

* `Rp.C57_touch` [p, q] – C57: touching a request that is not granted has no effect at all.
* `Rp.C57_violated` [p, q] – C57 is false: wait twice with a timeout for the same granted receipt, release it, and let both timeouts pass: the second timeout goroutine blocks on the full cancel channel while it holds the protector's lock; from then on no call to `Request`, `WaitUntilGranted`, `Touch`, `Release` or `Shutdown` gets through, whatever happens.

### C58 Granted tokens come back if their user dies (partial)

Modules: `Rp/Props2`.
Never early; but two Touch calls at the wrong moment keep the tokens for ever.

* `Rp.C58_not_early_partial` [p, q] – C58, first part: the release timeout takes tokens back only when the receipt has not been touched for the whole timeout: the managing goroutine reaches the timeout case only `timeout` after the grant or the last touch it has seen.
* `Rp.C58_violated` [p, q, c] – C58 is false: two `Touch` calls between the timeout case being chosen and `finish()` block for ever with the request's lock held, and then the tokens are never returned, whatever happens.

### C59 A pause requested by a user lasts until a resume (partial)

Modules: `Server/ModesProps`.
Holds if requests do not overlap; false with a jmod in progress.

* `Server.C59_partial` [p] – **C59 (partial: requests that do not overlap).** Jobs can be reserved iff there was no drain request and the last pause or resume request (if any) was a resume. Missing: overlapping requests, see `C59_violated`.
* `Server.C59_violated` [p, q] – **C59 is violated** by the code: a user pauses the server while a modification is in progress. The pause request sees that the server is paused already, and therefore undoes its own count; when the modification ends, the server resumes although the user never asked for it.
* `Server.C59_violated_resume` [p, q] – ... and the other way round: a user's resume request in the middle of a modification opens the server while the modification is still going on.

### C60 No job is handed out while the server is paused or draining (partial)

Modules: `Server/ModesProps`.
Holds for reserve requests that arrive after the pause; false for one in flight.

* `Server.C60_partial` [p, q] – **C60 (partial).** While the server is closed (paused or draining) throughout a history, the jobs handed out number at most the reserve requests that were already in progress when it was closed. Missing: that it is none at all, see `C60_violated`.
* `Server.C60_violated` [p] – **C60 is violated** by the code: a reserve request that began before the pause (it may wait for seconds for a job or a limit) hands out a job after the pause, in the middle of a modification.

### C61 A kill affects exactly the run it was requested for (partial)

Modules: `Server/LifeProps2`.
Holds once the start of the run was reported; false between reservation and start.

* `Server.C61_partial` [p, q, c] – **C61 (partial: once the start was reported).** A touch of a running job that was reported started tells its client to kill it exactly if a kill was requested since that start. Missing: the time between the reservation and the report of the start, see `C61_violated_forgotten` and `C61_violated_stale`.
* `Server.C61_violated_forgotten` [no axioms] – **C61 is violated**: a kill of a job that is reserved but whose start has not been reported yet is answered as done, and then forgotten when the start is reported.
* `Server.C61_violated_stale` [no axioms] – **C61 is violated**: the kill of a lost run also kills the next run of the job, by another client, if that client touches the job before it reports the start.
* `Server.C61_violated_lost` [no axioms] – **C61 is violated**: after a lost run, a kill of the next run before its start is reported releases the job at once, as if that run was lost too, although its client is alive.

### C62 The scheduler ends up with the number of runners a group needs (partial)

Modules: `Server/SgroupProps`.
Holds if requests for a group do not overlap; false otherwise.

* `Server.Sgroup.C62_partial` [p, q, c] – **C62 (partial: requests that do not overlap).** Once the requests are done, the scheduler was told the group's count last. Missing: requests that overlap, see `C62_violated`.
* `Server.Sgroup.C62_violated` [p] – **C62 is violated**: two requests that overlap, of which the first tells the scheduler last: the scheduler is left with one runner more than the group needs.

### C63 Jobs share a scheduler group only if their requirements and limit groups are the same (partial)

Modules: `Server/GroupsProps`.
Holds for names without ',' and '~'.

* `Server.Groups.C63_partial` [p, q] – **C63 (partial: names without separators).** Two jobs have the same scheduler group only if their requirements, as printed, and their limit groups are the same. Missing: limit groups with commas or tildes in their names (`C63_violated`).
* `Server.Groups.C63_violated` [no axioms] – **C63 is violated**: jobs limited by "a,b" share a group with jobs limited by "a" and "b".

### C64 The limit groups of an added job are the names given (proved)

Modules: `Server/GroupsProps`.

* `Server.Groups.C64_groups` [p, q, c] – **C64.** The limit groups of an added job are exactly the names given, each once, in ascending order; and the limit recorded for a name is the last one given with it.
* `Server.Groups.C64_canonical` [p, q, c] – **C64, names.** Two jobs given the same names in any order and number have the same list.

### C65 A job essence names the job it describes (partial)

Modules: `Server/KeysProps`.
Holds for jobs without a container image; false for container jobs.

* `Server.Keys.C65_partial` [p, q, c] – **C65 (partial: jobs without container image whose directory, if it matters, is given).** The essence made of the job's command, directory (if it matters) and mounts has the key of the job. Missing: jobs in containers (`C65_violated`).
* `Server.Keys.C65_violated` [p, q, c] – **C65 is violated**: no essence with the job's command finds a job that is run in a container, whatever the directory and mounts given, unless these spell the image. Here: the essence of the same command and mounts.

### C66 The order in which mounts are given does not change the job (partial)

Modules: `Server/KeysProps`.
The order does not matter (C66_order), nor does the default profile (C66_default); a single target that differs gives another key (C66_differ). The default mount point does not matter for a job with one mount (C66_mnt_partial), but with two it does (C66_violated_mnt); a semicolon in a path makes different mounts look the same (C66_violated_differ).

* `Server.Keys.C66_order` [p, q, c] – **C66.** The key does not depend on the order in which mounts at different places are given, nor on whether the default profile is named.
* `Server.Keys.C66_default` [p, q, c] – **C66, defaults.** A target without profile is the same as one with profile "default".
* `Server.Keys.C66_differ` [p, q, c] – **C66, targets.** What is different in where mounts are, or in the paths of a single target, gives different keys, as long as the mount point has no colon in it.
* `Server.Keys.C66_mnt_partial` [p, q, c] – C66, the default mount point (partial: a job with one mount). The point "mnt" may be given or left out.
* `Server.Keys.C66_violated_mnt` [p, q, c] – C66 is violated: with a second mount, giving the default mount point "mnt" changes the key, as the mounts are sorted before the default is filled in.
* `Server.Keys.C66_violated_differ` [p, q, c] – C66 is violated: mounts that differ have the same key if a path has a semicolon in it.

### C67 Getenv returns the value of the variable in the job's environment (partial)

Modules: `Utils/EnvProps`.
Holds for entries with exactly one '='.

* `Utils.C67_partial` [p, q, c] – C67 for environments without a name twice, in which every entry has exactly one `=`: Getenv gives the value of the entry, and the empty string for a missing name; it does not panic.
* `Utils.C67_violated` [p, q, c] – C67 fails for values with an `=`: they are cut short.
* `Utils.C67_violated_panic` [p, q, c] – C67 fails for entries without an `=`: Getenv panics.

### C68 The state recorded for a job is the state it is in (partial)

Modules: `Server/DbProps`.
Holds if the delayed writes are carried out in order and a job is not added again while live or with writes outstanding; false in each of these cases.

* `Server.Db.C68_partial` [p, q, c] – C68, for tidy histories: once the scheduled writes have been executed, the recorded state of every job is its state in the queue, and so a crash does not change the queue (except for jobs about which a request is in progress).
* `Server.Db.C68_violated_order` [p, q] – C68 fails: the writes for a start and for the end of that run are executed in the other order, and after a crash a job that nobody runs is taken to be running.
* `Server.Db.C68_violated_duplicate` [p, q] – C68 fails: adding a job again while it is running (the client is told it is a duplicate) replaces its record, and after a crash it is handed out a second time though it is still running.
* `Server.Db.C68_violated_readded` [p, q] – C68 fails, even with the writes in order: a write scheduled before a job was deleted changes the record of the job when it is added again.

### C69 A cloud server that became idle is destroyed in the end (partial)

Modules: `Cloud/ServerProps2`.
Holds if nothing is released while a cancellation of the countdown is being dealt with; false otherwise.

* `Cloud.C69_partial` [p, q, c] – C69, for histories in which nothing is released between an allocation that takes the server off death row and the moment that is dealt with: when nothing is left to be done, a server that was used and is idle is destroyed. Missing: the other histories, for which it is false (below).
* `Cloud.C69_violated` [p, q] – The code violates C69: a command is allocated to a server on death row and released before the cancellation is dealt with. The goroutine of that release sees the server on death row and does nothing; then the server is taken off death row. It is idle, and nothing will destroy it.

### C70 The behaviours triggered are those for the end that the server recorded (partial)

Modules: `Client/ExecuteProps`.
Holds if monitoring, killing, closing and uploading did not fail and the server answers the first request that reaches it; false otherwise, proved as violations.

* `Client.C70_partial` [p, q] – C70, for runs in which no step but the command failed and the server answers as soon as it has the request: the behaviours triggered are those for success if and only if the server archived the job, and there is no second round. Missing: runs with such failures, for which it is false (below).
* `Client.C70_violated_close` [no axioms] – The code violates C70: the job is archived, but the behaviours for failure ran, as closing a pipe failed.
* `Client.C70_violated_lost` [no axioms] – The code violates C70: the job is archived, and both kinds of behaviours ran, as an answer was lost.
* `Client.C70_violated_upload` [no axioms] – The code violates C70: the job is released, and the behaviours for success ran, as an upload failed.

### C71 Servers stay within the quota and the configured maximum over all histories (partial)

Modules: `Sched/SpawnProps`.
Holds if more is spawned only once earlier goroutines made their reservations (for the maximum: once servers are registered); false otherwise, proved as violations.

* `Sched.Spawn.C71_partial` [p, q, c] – C71, for histories in which no more servers are spawned while a goroutine started for that has yet to make its reservation, and the image asks for no more disk than the command: the quotas are never exceeded. Missing: such histories, for which it is false (below).
* `Sched.Spawn.C71_max_partial` [p, q, c] – C71, for histories in which more servers are spawned only when all that exist are registered or still reserved: there are never more servers than configured. Missing: other histories, for which it is false (below).
* `Sched.Spawn.C71_violated_race` [p] – The code violates C71: called again before the goroutines started the first time have made their reservations, `spawnMultiple` spawns more than there is quota for.
* `Sched.Spawn.C71_violated_max` [p, q] – The code violates C71: between the moment a server exists and the moment it is registered it is not counted against the configured maximum, so that more get spawned.
* `Sched.Spawn.C71_violated_volume` [p] – The code violates C71: the size of the disk that the image asks for is not taken into account, so that the quota of volumes is exceeded.

### C72 A request is refused as impossible exactly if it can never be met (partial)

Modules: `Sched/OpenstackProps`.
Holds with flavor sets and if the operating system needs no more RAM than the command; false otherwise, proved as violations.

* `Sched.Openstack.C72_spawn` [p, q, c] – the amounts that `reqForSpawn` asks for are what is required, and no less than what the operating system needs
* `Sched.Openstack.C72_partial` [p, q, c] – C72, if flavors are configured in sets and the operating system needs no more RAM than the command or the user chose the flavor: a request is accepted if and only if it is possible. Missing: more RAM for the operating system, and no sets; for both it is false (below).
* `Sched.Openstack.C72_violated_ram` [p] – The code violates C72: a request is accepted for which no flavor has the RAM that the operating system needs, so that it never runs: the flavors are looked at with the RAM of the command alone.
* `Sched.Openstack.C72_violated_error` [p] – The code violates C72: without sets, that no flavor suits is not reported as "impossible", so that the server does not bury the job but tries again for ever.

### C73 No more servers are spawned at once than configured or needed (proved)

Modules: `Sched/SpawnProps`.

* `Sched.Spawn.C73` [p, q] – C73: with a configured number of simultaneous spawns, there are never more spawns going on than that, whatever the steps interleave like.
* `Sched.Spawn.C73_needed` [p, q] – C73: no more is spawned for a command than what it takes for the desired number of runs, given how many run on one server.

### C74 Reservations of quota are given back (partial)

Modules: `Sched/SpawnProps`.
Holds unless an image or flavor is unknown; then the reservation stays for ever.

* `Sched.Spawn.C74_partial` [p, q] – C74, if image and flavor are known for every spawn: when all is settled, no reservation is left. Missing: unknown images and flavors, for which it is false (below).
* `Sched.Spawn.C74_violated` [p, q] – The code violates C74: after a spawn with an unknown image, one instance stays reserved whatever happens later.

### C75 Failed flavors are avoided, set by set (proved)

Modules: `Sched/OpenstackProps`.

* `Sched.Openstack.C75` [p, q] – C75: with nothing cached for the call, the flavor is that of the earliest set with one that did not fail, or else that of the earliest set with one; "impossible" exactly if no set has one.
* `Sched.Openstack.C75_stays` [p, q] – C75: what was determined for a call stays so for that call.

### C76 Lowering the number of runs on LSF never kills a running job (partial)

Modules: `Sched/LsfJobs`.
Only waiting jobs are killed and there are enough jobs, in full; the exact number if waiting jobs are array elements and running ones are listed first; false otherwise.

* `Sched.Lsf.C76_kill` [p, q, c] – C76: a job that is gone after `Schedule` was one of the command's, and was not running.
* `Sched.Lsf.C76_left` [p, q, c] – C76: no job appears from nowhere, and those that are left are unchanged.
* `Sched.Lsf.C76_enough` [p, q, c] – C76: with those that are submitted there are at least as many jobs as asked for.
* `Sched.Lsf.C76_atmost_partial` [p, q, c] – C76, for waiting jobs that are all array elements: there are no more jobs than asked for plus those that run. Without the assumption, `C76_violated_single`.
* `Sched.Lsf.C76_partial` [p, q, c] – C76, if moreover the running jobs of the command are listed before the others: there are exactly as many jobs as asked for, or as many as run if those are more. Without that, `C76_violated_order`.
* `Sched.Lsf.C76_scheduled` [p, q, c] – C76: `Scheduled` says how many jobs of the command there are.
* `Sched.Lsf.C76_violated_single` [p, q, c] – C76 is violated: a waiting job that was submitted on its own (as when one is needed) is not killed when none is wanted any more, and is not counted either.
* `Sched.Lsf.C76_violated_order` [p, q, c] – C76 is violated: with a waiting job listed before a running one, both stay when one is wanted.

### C77 The order of preference of LSF queues is determined by their attributes (proved)

Modules: `Sched/LsfProps`.

* `Sched.Lsf.C77_same` [p, q, c] – C77: however the maps are iterated, the preferred order of the queues is the same.
* `Sched.Lsf.C77_once` [p, q] – C77: each queue the user may use is in the order exactly once, and nothing else is.
* `Sched.Lsf.C77_better` [p, q, c] – C77: a queue that is as good as another in all criteria, and better in one, is preferred.
* `Sched.Lsf.C77_unlimited` [p, q, c] – C77, no limit counts as more than any limit: of two queues that differ only in that the first one has no limit on running jobs, jobs per user or hosts where the second has a positive one, the first comes before the second in the preferred order.
* `Sched.Lsf.C77_unlimited_memory` [p, q, c] – C77, a queue without a memory limit counts as one with a larger limit than all others, so that queues that have one are preferred

### C78 User options for bsub are passed on as given (partial)

Modules: `Bsub/ArgsProps`.
What is passed on and when is characterised exactly; options without a value can make all be dropped, and a last -R crashes.

* `Bsub.C78_passed` [p, q, c] – C78, what is passed on: as many words as the user gave, each as it was, but for the values of -R. Each of those is the printed text of the value with memory and hosts replaced, of which C48 says what it means.
* `Bsub.C78_when` [p, q, c] – C78, when the options are passed on: exactly if every second word starts with a dash and each -R among these has a value that can be parsed.
* `Bsub.C78_none_missed` [p, q, c] – C78, no resource string is passed on as it is: a word -R that is followed by a word that is no option is at an even place, so what follows it is rewritten.
* `Bsub.C78_args_partial` [p, q, c] – C78, the arguments of bsub: the scheduler's own, which ask for and reserve the job's memory on one host, come first and last, the very last is the command, and between them are the user's, if they can be passed on. If they cannot, the job is submitted without them, and the error is reported.
* `Bsub.C78_violated_panic` [p, q, c] – a last word -R is followed by a read beyond the end of the words, which ends the manager (or the client that validates the options)
* `Bsub.C78_violated_flag` [p, q, c] – an option of bsub without a value, such as -x, makes all the options be ignored, if an odd number of these precede a value

### C79 Validation of bsub options gives LSF's answer (partial)

Modules: `Bsub/ArgsProps`.
Holds if the same options always come with the same queue; false otherwise.

* `Bsub.C79_partial` [p, q, c] – C79: if the same options always come with the same queue, every answer is that of LSF for these options and this queue.
* `Bsub.C79_violated` [p, q, c] – With two queues the answer for the first is given for the second: options for a queue that does not exist are said to be accepted, and those for one that does to be refused.

### C80 Learned requirements cover 95% of past runs (partial)

Modules: `Server/LearnProps`.
At most five values or 5% are above the recommendation, if no other group's records start with the name of this one; 95% only from a hundred values on, and of values, not of runs. Floating point is exact in the model.

* `Server.Learn.C80_partial` [p, q, c] – C80: The recommendation is a multiple of the rounding amount, and 0 only if nothing but zeros was recorded. It is less than the largest value plus that amount. At most five values, or 5% of them if that is more, are above it; none if there are no more than five.
* `Server.Learn.C80_percentile_partial` [p, q, c] – C80, the percentile: with a hundred values or more, at most 5% of them are above the recommendation.
* `Server.Learn.C80_violated_few` [p, q, c] – with six values the lowest is recommended, not the largest or a percentile
* `Server.Learn.C80_violated_group` [p, q, c] – the runs of a group whose name goes on after that of this one are counted for this one; the last of them is taken for the largest of all
* `Server.Learn.C80_violated_often` [p, q, c] – a hundred values that were seen, of which the largest was seen in 96 of 195 runs: more than half of the runs needed more than is recommended

### C81 What a failed run lacked is given to all later runs (partial)

Modules: `Server/LearnReq`.
Override 2 (for values that were given), and what one failure leads to, in full; that it is never forgotten only with override 1. With override 0 a later failure of another kind makes the job ask for less again.

* `Server.Learn.C81_user` [p] – C81, the user's values: with an override of 2 a job that was given memory, time and disk asks for those, whatever was learned and however it failed.
* `Server.Learn.C81_user_history` [p] – and so over any number of failed attempts
* `Server.Learn.C81_learn` [p, q] – C81, learning: with an override of 0 what is known is what is asked for, but for more after a failure; with one of 1 it is the larger of that and what was asked for before.
* `Server.Learn.C81_failure` [p, q] – C81, after a failure: a run that ended for want of memory or time is followed by one with a GB more than was used, or an hour; one that ended for want of disk by one with 30% more.
* `Server.Learn.C81_history_partial` [p, q, c] – C81, over all attempts: with an override of 1 a job for which the user gave memory, time and disk never asks for less than before, so never again for as little as a run that ended for want of it used.
* `Server.Learn.C81_violated_forgotten` [p] – With the default override of 0 what a run needed is forgotten when a later run fails in another way: the job is run again with less memory than it is known to need.
* `Server.Learn.C81_violated_zero` [p] – an override of 2 is not honoured for memory that is 0, nor for a disk of 0 that was not set
* `Server.Learn.C81_violated_panic` [p] – with a database that returns an error, as a closed one does, a job that failed for want of memory, disk or time ends the server

### C82 Jobs are found by their report group (partial)

Modules: `Server/StoreProps`.
Which complete jobs are listed is characterised exactly, and nothing foreign is listed, for all histories. That all are listed, and once, only without modification of re-run jobs and without additions that leave out jobs and bring back others at the same time; both break it.

* `Server.Store.C82_complete` [p, q, c] – C82, complete jobs: the complete jobs listed for a rep group are exactly those that were stored with it at some time, are complete, and not being run again.
* `Server.Store.C82_named` [p, q, c] – C82, nothing else: for every history, a job listed for a rep group is one that some request was to add, or made, with that rep group.
* `Server.Store.C82_found_partial` [p, q, c] – C82, every job is found: a job in the queue, and a complete job that is not in the queue, is listed for its rep group. Partial: for histories without the special cases of `Quiet` (see the violations).
* `Server.Store.C82_once_partial` [p, q, c] – C82, once: no job is listed twice for a rep group. Partial as above.
* `Server.Store.C82_violated_twice` [p, q, c] – C82, violated: a search lists such a job twice
* `Server.Store.C82_violated_lost` [p, q, c] – C82, violated: a job that was complete, and is added again and modified, is not found any more: with the lookups of the old key, those of the complete job are gone (db.go:1219-1240)

### C83 A new job brings back the complete jobs that depend on its groups (partial)

Modules: `Server/StoreProps`, `Server/StoreWalk`.
Exact with respect to the dependencies that jobs were ever stored with; with respect to those of their current records, only one direction holds, since a job that is added again without a dependency keeps it.

* `Server.Store.walk_ends` [p, q, c] – the loop ends within the number of rounds that the model gives it
* `Server.Store.C83_queue` [p, q, c] – C83, what comes back: when a request to add jobs succeeds, the jobs in the queue afterwards are those that were, those added, and exactly those complete jobs that were stored as dependent on a group of an added job, or on a group of a job that depends on such a group, and so on.
* `Server.Store.C83_waits` [p, q, c] – C83, what a job waits for: the live jobs found for a dep group are exactly those that were stored with it
* `Server.Store.C83_current_partial` [p, q, c] – C83, by what the records say: a complete job that depends on a group of a job that is added comes back. Partial: for histories without the special cases of `Quiet`; the converse fails (see the violation).
* `Server.Store.C83_waits_current_partial` [p, q, c] – C83, a job that waits for a group waits for every live job that is in it by its record. Partial as above.
* `Server.Store.C83_violated_stale` [p, q, c] – C83, violated: a job that does not depend on the group any more, as it was added again without the dependency, comes back all the same: the lookups of the first addition stay
* `Server.Store.C83_violated_waits` [p, q, c] – C83, violated: and a job waits for a live one that is not in the group any more

### C84 Jobs that are there already are left out on request (partial)

Modules: `Server/StoreProps`.
Holds unless the request also brings back complete dependents; then all jobs in it are run again.

* `Server.Store.C84_partial` [p, q, c] – C84: with the option to leave out complete jobs, a job that is live or complete already is neither put in the queue nor stored again, and keeps its record. Partial: unless the request brings back other complete jobs (see the violation).
* `Server.Store.C84_violated` [p, q, c] – C84, violated: when a request with the option brings back a complete job, all the jobs in it are put in the queue, those that are complete as well (db.go:629 appends `jobs`, not those that are kept). Here `x` is complete, and run again.

### C85 A restart finds exactly the jobs that were in the queue (partial)

Modules: `Server/StoreProps`.
Holds for histories without modifications that put a job in a group that complete jobs depend on, and without additions as in C84_violated.

* `Server.Store.C85_partial` [p, q, c] – C85: at any time, a restart of the server puts exactly those jobs in its queue that are there. Partial: for histories without the special cases of `Quiet` (see the violations).
* `Server.Store.C85_accepted_partial` [p, q, c] – C85, and no request to add jobs fails
* `Server.Store.C85_violated_ignore` [p, q, c] – C85, violated: and these are not stored as live, so that a restart loses them
* `Server.Store.C85_violated_modify` [p, q, c] – C85, violated: complete jobs that depend on the new group of a modified job become live, but are not put in the queue; they run after the next restart only
* `Server.Store.C85_violated_refused` [p, q, c] – C85, violated: until then every addition of a job to that group fails, though the job is stored, and runs after the restart

### C86 A client that asks for a job is not kept waiting for ever (partial)

Modules: `Server/GateProps`.
The work of the server always ends, and then nobody waits, if every addition brought a new job, every kick succeeded and the server is not paused. Otherwise clients can wait for ever, or until the end of a pause; and a client can be let through before new jobs have their groups.

* `Server.Gate.C86_ends` [p, q] – C86, the server's own work ends: each step of it makes the rest smaller
* `Server.Gate.C86_goes_on` [p] – C86, and until it has ended, there is a next step
* `Server.Gate.C86_failed` [p] – C86, after a failure: a client that asks after a request to add or kick jobs failed goes on at once, unless the callback runs
* `Server.Gate.C86_partial` [p, q] – C86: in every history, whenever the server has done all that it does by itself, and is not paused, every client that asked for a job was let through. Partial: if requests to add or kick jobs succeed, and have something new in them.
* `Server.Gate.C86_violated_duplicate` [p, q] – C86, violated: jobs that are all in the queue already are added. Nothing changes in the queue, so no callback is called, and all clients that ask for a job wait until something else happens (a job that is ready is not run)
* `Server.Gate.C86_violated_kick` [p, q] – C86, violated: when a job that is to be kicked is not buried any more, the flag is reset, but clients that wait are not told
* `Server.Gate.C86_violated_pause` [p, q] – C86, violated: a client that waits when the server is paused is answered after the pause only, though a client that comes during the pause is answered at once
* `Server.Gate.C86_violated_early` [p, q] – C86, violated: a client that waits for the callback, which assigns new jobs to their groups, is let through by any other change in the queue, before the callback has run

### C87 A modification changes what was asked for and nothing else (partial)

Modules: `Server/ModifyProps`, `Server/StoreModify`.
In full for the queue, the keys and all fields but two. Behaviours are as asked for only if there is at most one per trigger; a new number of retries counts only after the job was buried and kicked.

* `Server.Store.C87_kept` [p, q, c] – C87: after a modification every job that was in the queue is in it, as it was, or, if it was asked for, under its new key and with exactly the given fields changed
* `Server.Store.C87_same` [p, q, c] – C87: and it adds none; no two jobs become one
* `Server.Store.C87_changed` [p, q, c] – C87: a job that is asked for is changed if its new key is its old one, or that of no other job, nor what that of another job that was asked for would be
* `Server.Store.C87_count` [p, q, c] – C87: no two jobs become one: there are as many in the queue as before
* `Server.Modify.C87_fields` [p, q, c] – C87: every job is left exactly as it was, or becomes what was asked for; the answer has exactly the latter, with their old and new keys
* `Server.Modify.C87_keys` [p, q, c] – C87: jobs of the queue that are modified have different keys afterwards, and none has that of a job that was there and is not one of them
* `Server.Modify.C87_behaviours_partial` [p] – C87, behaviours: as asked for, if at most one is given for each trigger, and there was at most one for each. Missing: more than one for a trigger, see the violations below.
* `Server.Modify.C87_behaviours_last` [p] – C87: in any case, behaviours for triggers that none is given for are kept, and the last one that is given for a trigger is there
* `Server.Modify.C87_retries_partial` [no axioms] – C87: it has then
* `Server.Modify.C87_violated_two` [p, q, c] – C87, violated: of two behaviours that are given for one trigger only the last is used
* `Server.Modify.C87_violated_off` [p, q, c] – C87, violated: if behaviours for a trigger are to be turned off, only the first is
* `Server.Modify.C87_violated_retries` [p, q, c] – C87, violated: a new number of retries has no effect on how often the job is run, until it is buried and kicked

### C88 Cleaning up a job removes only what was made for it (partial)

Modules: `Client/FilesProps`.
Holds for jobs whose unique directory was made for them, whose cwd is a clean path and whose relative mount points are in it. For a job that was modified to have cwd_matters, everything in the parent directory of its cwd is removed; a mount point like ../m makes it run for ever; a cwd with a final slash is removed itself if empty.

* `Client.Files.C88_partial` [p, q, c] – C88: nothing is removed that is not in the job's unique directory, except for directories between that and `cwd` that are empty now; nothing is made. This holds for jobs for which the unique directory was made (`Made`), and whose `cwd` is a clean path; see the violations for others.
* `Client.Files.C88_files` [p, q, c] – C88: files of users, and `cwd` itself, are not touched
* `Client.Files.C88_others` [p, q, c] – C88: nor are the directories of other jobs
* `Client.Files.C88_all` [p, q, c] – C88: without mounts, nothing is left of the unique directory
* `Client.Files.C88_mounts_gone` [p, q, c] – C88: with mounts, only what is mounted, the directories that it is in, and caches are left of it
* `Client.Files.C88_mounts_kept` [p, q, c] – C88: and these are left: what is mounted, and caches
* `Client.Files.C88_ends_partial` [p, q, c] – C88: it ends, if all relative mount points are in the working directory
* `Client.Files.C88_job_partial` [p, q, c] – C88, for jobs: one that was added without `CwdMatters` and not modified since is started, its command does whatever it does (`fs` is what it leaves), and then it is cleaned up: no file is removed that is not in the unique directory, nor `cwd`
* `Client.Files.C88_matters_partial` [p, q, c] – C88: one that was added with `CwdMatters`, and not modified since, is not cleaned up at all
* `Client.Files.C88_violated_loop` [p, q, c] – C88, violated: a job with a relative mount point that is not in its working directory, say "../m", or "."
* `Client.Files.C88_violated_modified` [p, q, c] – C88, violated: of a job that was modified to have `CwdMatters`, everything is removed that is in the parent directory of its `cwd`, whatever it is and whoever made it
* `Client.Files.Ex.C88_violated_lost` [p, q, c] – C88, violated: the user's file is lost, and all of their home directory
* `Client.Files.Ex.C88_violated_slash` [p, q, c] – C88, violated: a `cwd` with a slash at the end is removed too, if it is empty otherwise, and all empty directories above it

### C89 The backup of the database is whole, never goes back and catches up (partial)

Modules: `Server/BackupProps`, `Server/BackupProps2`.
Whole, one at a time, never back, and spaced out: in full. A change gets into the backup if it asks for one, nothing fails and the manager is not stopped at the wrong moment; results of failed runs do not ask, failed backups are not repeated.

* `Server.Backup.C89_whole` [p, q] – C89, whole: whatever happens, and wherever the process dies, the backup file is a whole copy of a state the database had
* `Server.Backup.C89_one` [p, q] – C89, one at a time: no two threads write the temporary file
* `Server.Backup.C89_forward` [p, q] – C89, forward: the backup never goes back to an earlier state, over crashes too
* `Server.Backup.C89_ends` [p, q] – C89, it ends: every move of a thread leaves less to do
* `Server.Backup.C89_goes_on` [p, q] – C89, it goes on: while there are threads, one of them can move, at once or when enough time has passed
* `Server.Backup.C89_latest_partial` [p, q] – C89, caught up: after a change that asks for a backup, in a manager with backups that is not being stopped, when from then on nothing fails and all threads have ended, the backup has that change. Missing from the full property: changes that do not ask, failures, and the end of the process (below).
* `Server.Backup.C89_close_partial` [p, q] – C89, stopped: if nobody is about to ask for a backup when the database is closed, and from the change on nothing fails, the backup has the change when closing ends. Missing: the manager can be stopped while somebody is about to ask (below).
* `Server.Backup.C89_off` [p, q] – C89, off: without backups (a development manager) no backup is ever written
* `Server.Backup.C89_gap` [p, q, c] – C89, spaced out: when a backup ends at time `t1` that began at `t0`, the next one begins 30 seconds later at the earliest, and after as much time as the last one took, unless the manager is stopped
* `Server.Backup.C89_violated_stop` [p] – C89, violated: if the manager is stopped between the end of a backup and the start of the one that is queued, a change that was reported long ago is not in the backup, although nothing failed and closing is documented to make a final backup
* `Server.Backup.C89_violated_late` [p] – C89, violated: a change that is committed just before the manager is stopped, and asks for its backup just after, is not in it
* `Server.Backup.C89_violated_unasked` [p] – C89, violated: the result of a failed run does not ask for a backup, so it is not in the backup, even after a regular stop
* `Server.Backup.C89_violated_failed` [p] – C89, violated: a backup that failed is not tried again, not even when the manager is stopped
* `Server.Backup.C89_violated_restart` [p] – C89, violated: a change that was not in the backup when the process died is still not after a restart, until something else is changed

### C90 Starting the manager never loses the database (partial)

Modules: `Server/InitDbProps`.
Holds with a local backup if bolt refuses files that are cut short; a copy that is cut short can be taken for the database, and a manager that cannot download its backup starts empty.

* `Server.InitDb.C90_kept` [p] – C90, kept: a database that can be opened is used as it is; no file is touched
* `Server.InitDb.C90_backup` [p] – C90, the backup is kept: in production, at no point of a start, whatever fails, is the backup changed
* `Server.InitDb.C90_source` [p, q] – C90, where it comes from: with a local backup, the manager works with its own database if that opens, else with the backup; it starts empty only if there is neither
* `Server.InitDb.C90_restored` [p] – C90, restored: a database that is missing or refused is restored from the backup, local or in S3, if nothing fails
* `Server.InitDb.C90_crash_partial` [p, q] – C90, crashes: however often a start is cut short at whatever point, or fails, a later start for which nothing fails has the database of the backup, if bolt refuses files that are cut short and downloads from S3 do not fail while there is no database. Missing: bolt does not refuse all of them, and failed downloads (below).
* `Server.InitDb.C90_refused` [p] – C90, refused: if neither can be opened the manager does not start, and both files stay as they are
* `Server.InitDb.C90_development` [p] – C90, development: a development manager starts with an empty database, and removes the old files
* `Server.InitDb.C90_violated_torn` [no axioms] – C90, violated: if the process dies while the backup is copied, and enough was written for bolt to open it, the next start works with the part that was copied, although the backup is whole
* `Server.InitDb.C90_violated_s3` [p] – C90, violated: if the database is missing and the backup is in S3 and cannot be downloaded just now, the manager starts with an empty database instead of failing (the next backup will replace the one in S3)

### C91 A command runs with the environment its submitter meant (partial)

Modules: `Utils/JobEnvProps`.
Holds for environments without a name twice, except PATH: a job whose PATH needs no addition runs with the PATH of an earlier job of the same runner. Values with a colon are cut on their way into containers, a PATH with an equals sign in bsub mode.

* `Utils.JobEnv.C91_env_partial` [p, q, c] – C91, the environment of a job that was reserved: whatever the order of the maps, for every name the process sees the job's override if there is one, and else what was recorded when the job was added, or what the environment of the runner has if nothing was recorded.
* `Utils.JobEnv.C91_add_partial` [p, q, c] – C91, EnvAddOverride: the added ones win over the existing ones, which win over what was recorded.
* `Utils.JobEnv.C91_runs` [p, q, c] – C91, a runner executes every job it reserves, however many, if their PATHs have values.
* `Utils.JobEnv.C91_runner_partial` [p, q, c] – C91, whatever the runner executed before: every name but PATH has the value of the runner's own overrides, and else what was meant for this job.
* `Utils.JobEnv.C91_path_partial` [p, q, c] – C91, PATH: a job whose PATH lacks the directory of the runner's executable gets it added at the end.
* `Utils.JobEnv.C91_keep_partial` [p, q, c] – C91, PATH: a job whose PATH has it, or that has no PATH, keeps what was meant, if no job the runner executed before needed the addition.
* `Utils.JobEnv.C91_alone` [p, q, c] – C91: a runner that was not told of a server leaves every job's environment alone.
* `Utils.JobEnv.C91_exec_partial` [p, q, c] – C91, not in bsub mode: the command runs in the environment of the job, with TMPDIR set to the temporary directory made for it (and HOME to its working directory if that was asked for) if a unique working directory was made.
* `Utils.JobEnv.C91_lsf_partial` [p, q, c] – C91 in bsub mode, for a PATH that has a value without a further `=`, if there is one: the directory with our bsub comes first in PATH and the rest follows, the variables of the emulation have their values, and nothing else differs from what the command would get outside bsub mode.
* `Utils.JobEnv.C91_container_partial` [p] – C91, docker: an override without a colon reaches the container whole (`docker run -e NAME=value`).
* `Utils.JobEnv.C91_mounts` [p] – C91: the mounts of a container are the comma separated ones asked for.
* `Utils.JobEnv.C91_violated_leak` [p, q, c] – C91 fails: a job whose PATH has the directory of the executable runs with the PATH of another job, which the same runner executed before.
* `Utils.JobEnv.C91_violated_nopath` [p, q, c] – C91 fails: so does a job that was submitted without a PATH.
* `Utils.JobEnv.C91_violated_substring` [p, q, c] – C91 fails: the directory of the executable is not added if the PATH has a directory whose name begins with it.
* `Utils.JobEnv.C91_violated_lsf` [p, q, c] – C91 fails: in bsub mode a PATH is cut at a further `=`.
* `Utils.JobEnv.C91_violated_panic` [p, q, c] – C91 fails: an environment with an entry PATH without `=` kills the runner, with the jobs it would have executed next.
* `Utils.JobEnv.C91_violated_container` [p, q, c] – C91 fails: an override with a colon reaches the container cut.
* `Utils.JobEnv.C91_violated_docker` [p, q, c] – C91 fails: the PATH the runner adds to reaches the container as its first directory only.
* `Utils.JobEnv.C91_violated_twice` [p, q, c] – C91 fails: an override given twice shields the second from being overridden: the process sees it, not the one added.

### C92 Configuration: precedence, sources, ports, files, and handing over (partial)

Modules: `Utils/ConfigProps`.
Holds for settings that are not zero values; a zero becomes the default. A web port that is set alone is ignored. Umasks of more than one digit are misread from the environment and on remote command lines. configor.Load is taken to do what its documentation says.

* `Utils.Config.C92_precedence_partial` [p, q] – C92, precedence: a setting nobody sets to the zero value of its type is what the documentation says: the environment variable, else what the last file in the order of reading says, else the default.
* `Utils.Config.C92_order` [p, q, c] – C92, the order of reading: the current directory counts more than the home directory, that more than $WR_CONFIG_DIR, and in each the file of the deployment more than the common one.
* `Utils.Config.C92_env` [p, q] – C92, a non-zero environment variable wins whatever the files say.
* `Utils.Config.C92_source` [p, q] – C92, `wr conf` reports a file as the source of a value only if that file was read, and sets the field to that value (or to a zero value, which became the default), and no environment variable is set.
* `Utils.Config.C92_source_env` [p, q] – C92, it reports the environment only if the variable is set and is the value (zero values aside), and the default only if the value is the default.
* `Utils.Config.C92_deployment` [p, q, c] – C92: the deployment asked for is used; else the one of the environment; else production, but development within wr's source.
* `Utils.Config.C92_plain` [p, q, c] – C92: settings that are no directories, files or ports are used as they are set.
* `Utils.Config.C92_files` [p, q, c] – C92: the files of the manager are where they were set to be if that is an absolute path, and else in the manager's directory, to which the deployment is appended; so is the database backup, unless it is in S3.
* `Utils.Config.C92_apart` [p, q, c] – C92: the two deployments never share the manager's directory.
* `Utils.Config.C92_ports` [p, q, c] – C92: a user whose ports exist and who sets none gets their own.
* `Utils.Config.C92_ports_web` [p, q, c] – C92: a web port is worked out if only the other is set, which is kept.
* `Utils.Config.C92_ports_set` [p, q, c]
* `Utils.Config.C92_ports_distinct` [p, q, c] – C92: no two users, deployments or interfaces have the same port.
* `Utils.Config.C92_toenv_partial` [p, q, c] – C92: `wr manager start` hands its settings to the process it starts in the background: whatever configuration files that one finds, all settings that are not zero values are the same, given that the paths are absolute. (A umask is written without leading zeros.)
* `Utils.Config.C92_umask_partial` [p, q, c] – C92: a umask given in the environment with leading zeros and one more digit is the octal number it is meant to be.
* `Utils.Config.C92_remote_partial` [no axioms] – C92: a umask of one octal digit reaches remote runners.
* `Utils.Config.C92_violated_zero` [p, q, c] – C92 fails: `cloudservers: 0` in a file, for no servers besides the manager's, gives the default, any number.
* `Utils.Config.C92_violated_zero_env` [p, q, c] – C92 fails: so does WR_CLOUDSERVERS=0.
* `Utils.Config.C92_violated_web` [p, q, c] – C92 fails: a web port that is set is not used if the other port is not set.
* `Utils.Config.C92_violated_root` [p, q, c] – C92 fails: the ports of the user with id 0 are not all above 1024.
* `Utils.Config.C92_violated_umask` [p, q, c] – C92 fails: WR_MANAGERUMASK=022, for files all can read, gives the number 22, the umask 026, so others cannot.
* `Utils.Config.C92_violated_umask_none` [p, q, c] – C92 fails: WR_MANAGERUMASK=000 gives the default.
* `Utils.Config.C92_violated_remote` [no axioms] – C92 fails: the umask 022 of a file (the number 18) becomes `umask 18` on the command line of remote runners, which is no umask; the umask 027 (the number 23) becomes the umask 023.
* `Utils.Config.C92_violated_toenv` [p, q, c] – C92 fails: a setting that is empty is not handed to the process in the background, which takes it from a file it finds.

### C93 State counts on status pages agree with the jobs (partial)

Modules: `Server/CountsProps`.
Callbacks are taken to run in the order of the changes (the queue starts each in a goroutine of its own). The Lost mark of a job survives its release, so a client that reserves the job and goes away before it starts it makes the counts wrong for ever; while the job is not started, the listing says lost. A modification of the report group sends nothing. What remains of the claim is proved for all histories without these, and that stale marks are all that listings differ by.

* `Server.Counts.C93_counts_partial` [p, q, c] – C93: from the time on that a page has the right counts, as long as events are fine, it has the right counts whenever no job has a mark left over from a lost run.
* `Server.Counts.C93_start_partial` [p, q, c] – C93: a page that saw all from the start has what a listing has.
* `Server.Counts.C93_positive_partial` [p, q, c] – C93: a count never is below nought as long as events are fine.
* `Server.Counts.C93_stale_partial` [p, q, c] – C93: jobs with a mark left over from a lost run are counted as running although they are listed as lost: this is all that the page and the listing differ by.
* `Server.Counts.C93_sum` [p, q, c] – C93: whatever happens, what is sent for all jobs together is the sum of what is sent for the report groups.
* `Server.Counts.C93_snapshot` [p, q] – C93: what a page gets when it opens is what a listing has.
* `Server.Counts.C93_follow_partial` [p, q, c] – C93: a page that opens and follows a report group has what a listing of the group has.
* `Server.Counts.C93_violated_lost` [p] – C93 violated: a job whose run was lost keeps the mark until it is started again. If the client that reserved it next goes away before it starts it, the page is told of one lost job less, and there was none.
* `Server.Counts.C93_violated_listing` [p] – C93 violated: while a client has such a job and did not start it yet, a listing says that it is lost.
* `Server.Counts.C93_violated_group` [p, q] – C93 violated: a job that is given another report group is still counted in the old one, and later leaves the new one in which it never was.

### C94 Jobs that stay ready are looked at again and again (partial)

Modules: `Server/RacTimerProps`.
The code can deadlock: a check that has received from the timer but does not yet have racmutex, and a callback that has racmutex and receives from the same timer, wait for each other for ever; all else that needs racmutex (adding jobs, scheduling) then blocks too. Proved for all other states: the callback can always come to schedule again by internal steps only. Semantics of timers are those of Go 1.23.

* `Server.RacTimer.C94_one` [p, q, c] – C94: at no time does more than one checker wait for the timer.
* `Server.RacTimer.C94_armed` [p, q, c] – C94: a checker that waits for the timer will hear from it: its time is yet to come, or has come.
* `Server.RacTimer.C94_due` [p, q, c] – C94: whenever jobs are ready and the server is neither paused nor stopped, a run of the callback is going on or due, or a checker is there that will ask for one.
* `Server.RacTimer.C94_lock` [p, q, c] – C94: racmutex is only held by a callback that deals with the timer.
* `Server.RacTimer.C94_again_partial` [p, q, c] – C94: whenever jobs are ready and the server is neither paused nor stopped, then unless the callback and a checker wait for each other, runners will be scheduled once more if all go on, although nothing happens from outside.
* `Server.RacTimer.C94_violated_deadlock` [p] – C94 violated: the checker has its value from the timer but not yet the lock; a callback takes the lock, cannot stop the timer and waits for a value that will never come. From then on, whatever happens, the lock is held and no runner is ever scheduled again.
* `Server.RacTimer.C94_violated_receive` [p, q, c] – C94 violated: the receive is never of any use: a callback that comes to it stays there.

### C95 The scheduler is asked for as many runners as can be used (partial)

Modules: `Server/RacProps`.
Each run of the callback tells the right numbers. After an error of the scheduler the old numbers are told again later even if newer ones were told since. The room of a limit is given to each scheduler group with that limit.

* `Server.Rac.C95_told` [p, q, c] – C95: the scheduler is told, for each scheduler group with ready or running jobs, as many runners as jobs run, and as jobs are ready that the limits leave room for; for each other group that was needed the last time, that no runner is needed; and nothing else.
* `Server.Rac.C95_once` [p, q] – C95: no scheduler group is told of twice in a run of the callback.
* `Server.Rac.C95_kept` [p, q, c] – C95: what is kept for the next time are the groups that have ready or running jobs.
* `Server.Rac.C95_skipped` [p, q, c] – C95: jobs are left out for the limits only, and it is noted how many.
* `Server.Rac.C95_priority` [p, q] – C95: without a limit the runners of a group are asked for with the highest priority of its ready jobs.
* `Server.Rac.C95_priority_first` [p, q, c] – C95: with a limit that leaves room, it is at least that of the first job of the group, which is the one to be reserved first.
* `Server.Rac.C95_priority_some` [p, q, c] – C95: and never a priority that no job of the group has.
* `Server.Rac.C95_impossible` [p] – C95: if the scheduler says that it can never run the jobs of a group, exactly the ready jobs of this group are buried, for want of resources.
* `Server.Rac.C95_error` [p] – C95: otherwise no job changes; the schedule is tried again exactly if there was an error.
* `Server.Rac.C95_agree_partial` [p, q, c] – C95: as long as the scheduler gives no errors, what it was told last for a group is what the server keeps for it, and nought, if anything, for all others.
* `Server.Rac.C95_rac_partial` [p, q, c] – C95: a run of the callback puts all right, whatever was before, if the scheduler gives no error now.
* `Server.Rac.C95_violated_retry` [p] – C95 violated: after an error the schedule is tried again with what was needed then, although it was told since that no runner is needed any more.
* `Server.Rac.C95_violated_shared` [no axioms] – C95 violated: the room that a limit leaves is given to each of the scheduler groups that it is for, so more runners are asked for than jobs may run.

### C96 The file of commands is what is added (partial)

Modules: `Cmd/AddFileProps`.
Lines that begin with a tab are passed over without a word even if there are options with a command after it; `null` options end the program with a nil pointer dereference; cwd_matters in a line does not change the default working directory as --cwd_matters does.

* `Cmd.AddFile.C96_lines` [p, q] – C96: the lines of a file are read as they are.
* `Cmd.AddFile.C96_last` [p, q] – C96: also the last one if there is no newline after it.
* `Cmd.AddFile.C96_long` [p, q, c] – C96: nothing is added if a line is too long.
* `Cmd.AddFile.C96_plain` [p] – C96: a line without a tab is the command, character by character.
* `Cmd.AddFile.C96_tab` [p] – C96: what is before the tab is the command, whatever the options after it say.
* `Cmd.AddFile.C96_json` [p] – C96: a line that begins with a brace gives all of it.
* `Cmd.AddFile.C96_bad` [p] – C96: options that are no JSON are not ignored.
* `Cmd.AddFile.C96_columns` [p] – C96: neither are further columns.
* `Cmd.AddFile.C96_all_partial` [p, q, c] – C96: if jobs are added at all, there is one for each line that has something before the first tab, in the order of the lines, and it is made of the options of this line and a default working directory that does not depend on other lines.
* `Cmd.AddFile.C96_added` [p, q, c] – C96: jobs are added if the lines that ask for a job can be understood.
* `Cmd.AddFile.C96_nothing` [p, q, c] – C96: if a line asks for a job and cannot be understood, no job of the file is added.
* `Cmd.AddFile.C96_commands` [p, q, c] – C96: a file of plain commands gives these commands.
* `Cmd.AddFile.C96_convert` [p, q] – C96: the conversion that is used is one for which the default working directory only matters if the line gives none.
* `Cmd.AddFile.C96_violated_skip` [p, q, c] – C96 is violated: a line with a tab before its JSON is passed over without a word, although the JSON has a command; the other jobs are added.
* `Cmd.AddFile.C96_violated_null` [p, q, c] – C96 is violated: the program ends with a nil pointer dereference and not with a message if the options are `null`.
* `Cmd.AddFile.C96_violated_cwd` [p, q, c] – C96 is violated: a line that says that its working directory matters is run in /tmp, and not in the directory of the user, if the manager is on another machine, while the same option given for all lines makes it the directory of the user.

### C97 Requests over the REST API and the status page act on the jobs they describe (partial)

Modules: `Server/RestProps`.
Holds for groups and for running or lost jobs. A request to delete what can be deleted also deletes jobs that run; with a key the state is ignored; a complete job named first stops the rest from being killed; a misspelt state lists everything.

* `Server.Rest.C97_kill_partial` [p, q, c] – C97: if running or lost jobs of report groups are cancelled over the REST API, exactly the jobs of these groups that are in that state are, and exactly these are in the answer.
* `Server.Rest.C97_refused` [p, q, c] – C97: a request to cancel jobs that does not say which, or of which the limit is no number, is refused and does nothing.
* `Server.Rest.C97_only` [p, q, c] – C97: whatever is asked for, only jobs that are with a runner are killed, and no job leaves the queue.
* `Server.Rest.C97_get_key` [p, q, c] – C97: a key is answered with the job that has it.
* `Server.Rest.C97_get_done` [p, q, c] – C97: a complete job is found by its key.
* `Server.Rest.C97_get_all_partial` [p, q, c] – C97: without ids and limit, all jobs in the queue that are in the state asked for, and no others, are in the answer.
* `Server.Rest.C97_delete_partial` [p, q, c] – C97: if none of the jobs chosen is with a runner, exactly those that can be deleted without leaving a dependent behind are deleted, and exactly these are in the answer; all others stay as they are.
* `Server.Rest.C97_post` [p, q] – C97: jobs are posted all or none; those in the answer are those posted that are in the queue afterwards.
* `Server.Rest.C97_web` [p, q] – C97: the status page removes and retries only jobs in the right state: of a group, exactly those with the exit code and the fail reason of the row the user clicked on.
* `Server.Rest.C97_web_key` [p] – C97: and with a key, only the job that has it.
* `Server.Rest.C97_web_states` [p, q] – C97: whatever the page asks for, a job with a runner is not removed and not retried, and one without is not killed.
* `Server.Rest.C97_web_kill` [p, q] – C97: the page kills the jobs it is asked to.
* `Server.Rest.C97_web_remove` [p, q, c] – C97: "remove" for a row of a group deletes exactly the jobs of this row that are not with a runner and can be deleted without leaving a dependent behind.
* `Server.Rest.C97_violated_delete` [p, q, c] – C97 is violated: a request to delete what can be deleted in a group deletes a job while a runner works on it.
* `Server.Rest.C97_violated_state` [p, q, c] – C97 is violated: a request to cancel a job if it is lost kills it although it is not.
* `Server.Rest.C97_violated_stop` [p, q, c] – C97 is violated: a running job is not killed if the request also names a complete one.
* `Server.Rest.C97_violated_word` [p, q, c] – C97 is violated: a word that names no state is taken as if no state was asked for, and a state is ignored when a job is asked for by its key.

### C98 A runner handles every job it gets and stops in time (partial)

Modules: `Cmd/RunnerProps`.
a job is only run if there was time for it when the runner began to wait for it (C98_time_partial); if it is expected to take as long as the one before, the time spent waiting is not counted, so it can be started too late (C98_violated_late, runner.go:205).

* `Cmd.Runner.C98_handled` [p] – C98: every job that the runner got, and no other, it either ran or gave back, once, in the order it got them.
* `Cmd.Runner.C98_time_partial` [p, q] – C98: a job is only run if it was expected to end in time when the runner began to wait for it.
* `Cmd.Runner.C98_time_other` [p, q, c] – C98: a job that is expected to take another time than the one before, or than none, is only run if it was expected to end in time when it was got: otherwise it is given back.
* `Cmd.Runner.C98_stop` [p, q] – C98: the runner does nothing after it stopped, and it stops after giving a job back.
* `Cmd.Runner.C98_told` [p, q] – C98: the runner asks for no other job after it got none, the server failed, or it was told to stop.
* `Cmd.Runner.C98_goes_on` [p, q] – C98: the runner only stops if there is no job, no time, no connection, no environment, or if it was told to; otherwise it goes on to wait for the next job, also if the command failed.
* `Cmd.Runner.C98_timeout` [p, q, c] – C98: the runner waits longer for an answer of the server than the server waits for a job.
* `Cmd.Runner.C98_violated_late` [p] – C98 is violated: a job is run although it was not expected to end in time any more when the runner got it, if the one before was expected to take as long: the time waiting for it is not counted.

### C99 Items leave the delay and run sub-queues in time, and calls that put them there return (partial)

Modules: `Queue/TimerProps`.
in time unless Update makes an item due earlier (it never wakes the goroutine: C99_violated_update), or AddMany is given an item that is only just due before the goroutine wakes before others that are due earlier (C99_violated_many); calls return unless the queue is destroyed between putting the item and waking the goroutine (C99_violated_destroy).

* `Queue.Timer.C99_in_time_partial` [p, q, c] – C99: when nothing is going on, the goroutine wakes no later than each item is due, but for the time that the call which put the item took to look at when it wakes.
* `Queue.Timer.C99_exact_partial` [p, q, c] – C99: if calls take no time the goroutine wakes no later than each item is due.
* `Queue.Timer.C99_overdue_partial` [p, q, c] – C99: an item that is overdue when nothing is going on leaves as soon as the goroutine is run: its timer has fired.
* `Queue.Timer.C99_due` [p, q] – C99: the goroutine never takes an item before it is due, and takes all that are.
* `Queue.Timer.C99_goroutine` [p, q] – C99: the goroutine never waits for a call that is not waiting for it.
* `Queue.Timer.C99_returns_partial` [p, q] – C99: every call returns: from every state of a queue that is not destroyed, steps of the call itself and of the goroutine alone are enough to finish it.
* `Queue.Timer.C99_violated_update` [p, q] – C99 is violated by Update: an item whose delay is made shorter stays delayed for as long as it would have before. Here it is 50 minutes overdue, nothing is going on, and the goroutine goes on sleeping.
* `Queue.Timer.C99_violated_many` [p, q] – C99 is violated by AddMany: it only looks again for the first item that is due before the goroutine wakes; if by then that one no longer is, the others are forgotten. Here one that is due after a second is overdue by 50 minutes.
* `Queue.Timer.C99_violated_destroy` [p] – C99 is violated by Destroy: a call that put an item just before the queue was destroyed never returns.

### C100 A Reserve that waits gets an item when there is one (partial)

Modules: `Queue/WaitProps`.
a call that was told of an item that another call then takes first does not wait again but returns nothing before its time is over (C100_violated_early).

* `Queue.Wait.C100_promised` [p, q, c] – C100: no ready item is overlooked: while a call waits for an item of a group, there are no more ready items of this group than there are other calls that were told of one and are about to take it.
* `Queue.Wait.C100_none_left` [p, q, c] – C100: so, when every call that was told of an item has gone on, no item of a group is ready that a call waits for.
* `Queue.Wait.C100_one` [p, q] – C100: an item that gets ready makes exactly one of the calls that wait for its group, if there are any, go on, and no other.
* `Queue.Wait.C100_takes` [p, q] – C100: a call that goes on takes an item of its group that was ready, and nobody else can take it; it returns nothing only if no item of its group is ready or its time was over.
* `Queue.Wait.C100_gets_partial` [p, q, c] – C100: if items that are ready are only taken by calls that waited, a call that waits returns an item, unless its time is over: it is never told of an item that it does not get.
* `Queue.Wait.C100_violated_early` [p] – C100 is violated otherwise: a call that is to wait is told of an item, another call takes it first, and the waiting one returns that nothing is ready at once, although its time is not over.

### C101 The output shown for a failed job is that of its last run (partial)

Modules: `Server/StdProps`.
Holds if the writes of one job are executed in the order in which its runs ended and the job was not deleted or modified before. Each is written by a goroutine of its own, so the order is not guaranteed (C101_violated_order); deleting a job or changing its key leaves its output behind for the next job with the key (C101_violated_deleted, C101_violated_modified); asking waits for the writes of all jobs, possibly for ever (C101_violated_waits).

* `Server.Std.C101_last_partial` [p, q] – C101 (when writes of one job take place in the order in which its runs ended, and no job with its key was deleted, or given another key, before): what is shown as the output of a job is what its last run printed if the job exited with a code other than 0 or is buried, and nothing otherwise.
* `Server.Std.C101_one_run` [p, q] – C101, for every order of the writes: what is shown is nothing, or standard output and standard error that the same run of a command with that key printed; never a mixture of two runs, nor what another job printed.
* `Server.Std.C101_only_failed` [p] – C101: the output of a job that did not fail and is not buried is not shown, whatever is stored.
* `Server.Std.C101_listed` [p, q] – C101: of jobs that are listed together, either all those that failed or are buried are shown with their output, or none is; all are if and only if output was asked for and there are at most 1000 of them.
* `Server.Std.C101_violated_order` [p, q] – C101 is violated: the writes of two runs of a job may be executed in the other order, so that what the older run printed is shown.
* `Server.Std.C101_violated_deleted` [p, q] – C101 is violated: deleting a job does not delete what it printed, so that a new job with the same key that is buried because it can never be scheduled is shown with the output of the job that was deleted, although it was never run.
* `Server.Std.C101_violated_modified` [p, q] – C101 is violated: a buried job that is modified such that its key changes, and then changed back, is shown with what its first command printed before it was modified.
* `Server.Std.C101_violated_waits` [p, q] – C101 is violated: looking up the output of a failed job waits for the writes of all jobs, so that it may wait for ever although every write is executed, and none of them is of that job, as long as other jobs keep failing.

### C102 The last completion time of a report group is that of its last job (proved)

Modules: `Server/EndTimeProps`.
For end times whose seconds fit in 64 bits.

* `Server.EndTime.C102_latest` [p, q] – C102: after jobs were archived, in whatever order, the time that is given for a report group that was asked for is the latest of the end times of its jobs, in whole seconds.
* `Server.EndTime.C102_none` [p, q] – C102: no time is given for a group none of whose jobs was archived, nor for one that was not asked for.
* `Server.EndTime.C102_grows` [p, q, c] – C102: a time is given for every group that was asked for and one of whose jobs was archived; archiving more jobs never makes it earlier, nor does archiving jobs of other groups change it.

### C103 Bad cloud servers are known until they are good again or confirmed dead, and are then destroyed with their jobs (partial)

Modules: `Server/BadServersProps`.
The jobs on a server that was found to be good again between copying the list and confirming are killed (C103_violated_good); a server that the provider could not destroy counts as destroyed and runs for ever (C103_violated_leak); the REST API and the status page do not kill the jobs on the server they destroy (C103_violated_jobs).

* `Server.BadServers.C103_known` [p, q, c] – C103: a server that has gone bad and was not destroyed is in the list of bad servers, unless the scheduler is about to say so or a user confirmed it to be dead a moment ago.
* `Server.BadServers.C103_listed` [p, q, c] – C103: every server in the list of bad servers is bad, unless the scheduler is about to say that it is good again.
* `Server.BadServers.C103_auto` [p, q, c] – C103: if servers are to be confirmed automatically, there is a timer for every server in the list that is not destroyed; if the server stays bad and nobody else does, it confirms the server to be dead: the server is destroyed, the jobs on it are killed, and it leaves the list.
* `Server.BadServers.C103_auto_only` [p, q, c] – C103: a timer confirms a server to be dead only if the server has been bad, without being found to be good, for the whole of the configured time.
* `Server.BadServers.C103_destroyed` [p, q] – C103: a server that was destroyed is never good again.
* `Server.BadServers.C103_permanent` [p, q] – C103: a server with a permanent problem that has gone bad stays so.
* `Server.BadServers.C103_killed_partial` [p, q] – C103 (for a server that still is in the list and bad when it is confirmed): jobs on a server are only killed when the server has been destroyed and taken out of the list.
* `Server.BadServers.C103_confirmed` [p, q] – C103: a server that is killed by its host name, or confirmed to be dead while it is in the list and bad, is destroyed and leaves the list, and the jobs on it are killed.
* `Server.BadServers.C103_timer` [p, q] – C103: the timer leaves alone a server that is not in the list any more: one that got good, or that a user confirmed to be dead before.
* `Server.BadServers.C103_violated_good` [p] – C103 is violated: the list is copied before the lock is taken, so that the jobs on a server that was found to be good in the meantime are killed when bad servers are confirmed to be dead, and the server is reported as confirmed though it is not destroyed.
* `Server.BadServers.C103_violated_leak` [p, q] – C103 is violated: if the provider fails to destroy a server that was confirmed to be dead, the server counts as destroyed and its jobs as dead, but the machine runs for ever: it is not listed, and nothing that anybody can do with wr makes it go away.
* `Server.BadServers.C103_violated_jobs` [p] – C103 is violated: confirming a server to be dead over the REST API or on the status page destroys it, but does not kill the jobs on it.

### C104 The remote file systems of a job are mounted where asked, and unmounted again (partial)

Modules: `Client/MountProps`.
Holds if no unmount fails and no signal comes. After a failed unmount a second Unmount reports success although the file system is still mounted (C104_violated_retry); a relative cache directory is not put in the CacheBase of its configuration (C104_violated_cachedir); SIGINT or SIGTERM makes any process that ever mounted something panic (C104_violated_signal); the second try after a failure of fusermount mounts somewhere else (C104_violated_again).

* `Client.Mount.C104_all` [p, q] – C104, if `Mount` returns no error: each configuration of the job, in order, is mounted as it asks for, nothing else is, and all of them will be unmounted by the next `Unmount`.
* `Client.Mount.C104_dirs` [p, q] – C104, the directories `Mount` returns without an error: those mounted in the working directory (or by default), and the cache directories given as relative paths.
* `Client.Mount.C104_none_partial` [p, q, c] – C104, if no unmount fails: whatever calls of `Mount` and `Unmount` were made before, once `Mount` has returned an error nothing of the job is mounted any more, also not what was mounted before. Missing: an unmount that fails.
* `Client.Mount.C104_unmount` [p, q, c] – C104, `Unmount`: all that is tracked and whose unmount works is unmounted, also if that of another fails; there is an error if and only if one fails; and files are uploaded if and only if uploads are not stopped.
* `Client.Mount.C104_after` [p, q, c] – C104: after calls of `Mount` and `Unmount` in any order, in which no unmount failed, an `Unmount` that works leaves nothing mounted.
* `Client.Mount.C104_violated_retry` [no axioms] – The code violates C104: an unmount fails; a second `Unmount` has nothing to do and returns no error, and the file system is still mounted.
* `Client.Mount.C104_violated_cachedir` [no axioms] – The code violates C104: a configuration names the directory for its caches, and a target a relative cache directory: it is not made in that directory.
* `Client.Mount.C104_violated_signal` [p, q] – The code violates C104: once something was mounted, even if it has been unmounted since, SIGINT or SIGTERM makes the process panic, whatever the unmounts do.
* `Client.Mount.C104_violated_again` [no axioms] – The code violates C104: mounting at the working directory itself was asked for; fusermount failed at first; what is tried again then is mounted in the sub-directory "mnt".

### C105 A command that runs is watched (partial)

Modules: `Client/MonitorProps`.
A kill request that is learned before the command was started is forgotten, and leaves the command unwatched (C105_violated_early); after a kill for memory Execute can wait for ever for a process that holds the output open (C105_violated_memory). killCmd is taken to reach the command at once.

* `Client.Monitor.C105_reasons` [p, q, c] – C105, what the decision at the end is made on, after any run: the command is said to have been signalled, to have been out of time, out of disk or out of memory exactly if a signal came, it came after the time of the job, the disk was found full, or more memory than expected was measured; its exit is that of the command; and it is said to have been killed only if that was asked for.
* `Client.Monitor.C105_peak` [p, q, c] – C105, the peak of the memory is the largest that was measured
* `Client.Monitor.C105_needless` [p, q, c] – C105: the command is not killed without need: SIGKILL is sent only if a kill was asked for, a signal came, no space was left, or it was measured to use both more memory than expected and more than the given part of that of the machine.
* `Client.Monitor.C105_kill` [p, q, c] – C105, a kill request that comes while the command is watched: unless the command has exited, nothing stops the client from killing it, in two steps of its own.
* `Client.Monitor.C105_killed` [p, q, c] – C105: a command that is said to have been killed when `Execute` decides what to do was sent SIGKILL; if then it exited with a code that has no meaning of its own, without another reason, the job is buried as killed.
* `Client.Monitor.C105_watched_partial` [p, q, c] – C105, if no kill request was learned before the command was started: as long as `Execute` waits for the command, it is being watched, or about to be, or has been killed. Missing: a kill request that is learned before.
* `Client.Monitor.C105_ends` [p, q, c] – C105: once the command has exited, and no other process holds its output open (or the client has stopped reading it), the client gets to its decision by steps of its own: its goroutines do not wait for each other for ever.
* `Client.Monitor.C105_violated_early` [p, q, c] – The code violates C105: a kill request learned before the command was started (while file systems are mounted, say) is forgotten, and leaves the command unwatched: it is not killed, whatever signals come and however much it uses.
* `Client.Monitor.C105_violated_memory` [p] – The code violates C105: after the command was killed for its use of memory, while another process holds its output open, `Execute` waits for that process, and no signal or kill request changes that.

### C106 A job that could not be started leaves nothing behind, and the server knows (partial)

Modules: `Client/SetupProps`.
With docker or JSON failing the file systems stay mounted (C106_violated_mounted); a failure to make the command line or pipes is not told (C106_violated_silent); failures before the environment is there leave the temporary directory (C106_violated_tmp); a working directory that cannot be written to makes Execute try for ever (C106_violated_spin).

* `Client.Setup.C106_started` [p] – C106: the command of a job is started only by the client that reserved the job, and only once all was set up for it; and if all was and it can be started, it is.
* `Client.Setup.C106_told_partial` [p, q] – C106, if the job could not be started for a reason other than that its command line or the pipes for its output could not be made: the server is told exactly one thing, to bury or to release the job, with the reason. Missing: those two reasons.
* `Client.Setup.C106_untold` [p, q] – C106: a command that was started, and of which the server could not be told, is killed; the behaviours for failure are triggered, and nothing stays mounted.
* `Client.Setup.C106_on` [p, q] – C106: a client of which `Execute` goes on has started the command, has told the server nothing but that, and has not killed it.
* `Client.Setup.C106_unmounted_partial` [p, q] – C106, if docker works and the job can be written as JSON: when `Execute` gives up before the command runs, no file system stays mounted; and in any case the directory with the LSF links is removed. Missing: docker or JSON fails.
* `Client.Setup.C106_dir` [p, q] – C106: if the working directory cannot be made, that is given up after four tries; if it can, at most three after failures, and the hold file can be, it worked.
* `Client.Setup.C106_violated_mounted` [no axioms] – The code violates C106: docker cannot be used: the job is buried, and its file systems stay mounted.
* `Client.Setup.C106_violated_silent` [no axioms] – The code violates C106: the command line (for a container, say) cannot be made: the server is not told.
* `Client.Setup.C106_violated_tmp` [no axioms] – The code violates C106: the file systems cannot be mounted: the job is buried, and its directory for temporary files is left behind.
* `Client.Setup.C106_violated_spin` [p] – The code violates C106: if the hold file cannot be made (the directory is there, but not to be written to), it tries for ever.

### C107 The --mounts option means what its help says (partial)

Modules: `Cmd/MountParseProps`.
Text after a second @ is dropped silently (C107_violated_at), and an empty bucket is accepted (C107_violated_empty).

* `Cmd.MountParse.C107_read` [p, q] – C107: a list of targets written as the help says is read as those targets, in order
* `Cmd.MountParse.C107_refused_partial` [p, q] – C107, if no part has more than one '@': what is read is written as the help says; anything else is refused. Missing: parts with more.
* `Cmd.MountParse.C107_one` [p] – C107: exactly one of the two options is to be given
* `Cmd.MountParse.C107_violated_at` [p, q, c] – The code violates C107: what comes after a second '@' is dropped without a word
* `Cmd.MountParse.C107_violated_empty` [p, q, c] – The code violates C107: a target without a bucket is accepted

### C108 What a client tells the server about its job counts once, and the client's own copy says the same (partial)

Modules: `Client/ReportProps`.
Proved: at most once, exactly once when the server says so, agreement on the run, and on state and tries left where the two sides count alike. The code violates the rest: after a lost answer to the Release of a job with one or two tries left the server answers every later attempt with an internal error and the client goes on for 24 hours; the copy differs after Started, Bury, Archive and a Release after exit code 0; and an end told after the job was confirmed dead is dropped without an error.

* `Client.Report.C108_run` [p, q] – C108: after a run that this client started and ended, its copy and the server's agree on the run: exit code, memory, disk, CPU time, end time, directory, process id and number of attempts.
* `Client.Report.C108_state` [p, q] – C108: after `Archive` and `Bury` the state in the copy is the one that the server shows.
* `Client.Report.C108_release_partial` [p, q, c] – C108: after `Release` the copy has the server's number of tries left if and only if the job was started exactly if it ended with an exit code other than 0; and if so (and tries were left), it has the state that the server shows.
* `Client.Report.C108_once` [p, q] – C108: when the loop of `Execute` ends with the server's word that all is well, client and server are as if the server had been told exactly once, however many requests it got and whatever others did meanwhile, unless one of them confirmed the job dead.
* `Client.Report.C108_ends` [p, q] – C108: whatever requests get through and whatever others do, the end of a run is carried out at most once.
* `Client.Report.C108_again_partial` [p, q] – C108, answers lost, nobody else acting: a `Bury`, and a `Release` of a job with three or more tries left, can be told again until an answer is heard. Missing: a `Release` with fewer tries left, an `Archive`, and the job being touched by others.
* `Client.Report.C108_heard` [p] – C108: if no answer gets lost and nobody else acts, the first one heard is that all is well.
* `Client.Report.C108_violated_release` [p, q] – The code violates C108: when the answer to the `Release` of a job with one or two tries left is lost, every later attempt is answered with an internal error, and the client goes on asking until its time (24 hours) is over, though the server did it at once.
* `Client.Report.C108_violated_archive` [p, q] – C108: when the answer to an `Archive` is lost, the next answer heard is that the job is not there, and the client gives up, the job being complete: the command is said to need another run (`C52_violated_lost`).
* `Client.Report.C108_violated_zero` [no axioms] – The code violates C108: a job that exited 0 is released (as its output could not be uploaded): it was its last try, the server has buried it, the client's copy says that it is delayed.
* `Client.Report.C108_violated_started` [no axioms] – The code violates C108: after `Started` the copy says that the job is reserved; the server shows that it is running.
* `Client.Report.C108_violated_left` [no axioms] – The code violates C108: after `Bury` the copy still has tries left; after `Archive` it still has the reason why an earlier run failed.
* `Client.Report.C108_violated_refused` [no axioms] – The code violates C108: an `Archive` that is refused, as the command failed, records the end of the run nonetheless; what a `Release` then tells is dropped, though it is answered with no error.
* `Client.Report.C108_violated_dead` [p] – The code violates C108: somebody confirmed a job dead that was only lost; its client then tells that it failed with exit code 1 and is answered with no error, but what is recorded is exit code -1 and that it was lost.
* `Client.Report.C108_violated_over` [p] – The code violates C108: if the delay of a job that was released is over before an answer is heard, and it is even given to another client, all later attempts fail, but not finally: for any number of them the client goes on until its time is over.

### C109 The client library does to jobs what its documentation says (partial)

Modules: `Client/LibraryProps`.
Proved outright for the pretend server's content and searches. The code violates the rest: RemoveJobs changes lists returned earlier, Disconnect panics for the documented value Y of PretendSubmissions, NewJob writes its queue into requirements shared with jobs of other schedulers, and gives 30 retries where 3 are documented.

* `Client.Library.C109_matches` [p, q] – C109: report groups match as the mode says.
* `Client.Library.C109_there` [p, q] – C109: after any submissions and removals the pretend server has exactly the jobs submitted and not removed since, in the order in which they were submitted; it never panics.
* `Client.Library.C109_arrays` [p, q] – C109: the memory of the pretend server behaves as Go's: no array ever changes its size, whatever is appended to or deleted from a slice of it.
* `Client.Library.C109_found` [p, q] – C109: the jobs found by report group, and by state if one is given, are those that are there and match, in order. An empty report group is refused.
* `Client.Library.C109_incomplete` [p, q] – C109: the incomplete jobs found, likewise; an empty report group stands for all.
* `Client.Library.C109_last` [p, q] – C109: the last completion time given for a group is that of the last of its complete jobs that are there.
* `Client.Library.C109_held_partial` [p, q] – C109: a list of submitted jobs that the program got is not changed by later submissions. Missing: removals (below).
* `Client.Library.C109_violated_held` [p, q, c] – The code violates C109: removing a job changes a list of submitted jobs got earlier: it now ends with nil.
* `Client.Library.C109_disconnect_partial` [p, q] – C109: a program that disconnects from the pretend server does not panic if `PretendSubmissions` is a number, and does otherwise.
* `Client.Library.C109_violated_disconnect` [p, q, c] – The code violates C109: with `PretendSubmissions` set to the value that its documentation gives, "Y", disconnecting panics.
* `Client.Library.C109_newjob_partial` [p, q, c] – C109: what `NewJob` makes: the command (with sudo if asked for), the scheduler's directory, which matters, the groups given, the amounts given or the default ones, and the scheduler's queues in `Other`, whose other entries are as given.
* `Client.Library.C109_kept_partial` [p, q, c] – C109: what a job needs is not changed by making more jobs with the same scheduler, whatever requirements are given for them. Missing: other schedulers (below).
* `Client.Library.C109_violated_shared` [p] – The code violates C109: making a job with another scheduler changes the queue of a job made before from the same requirements.
* `Client.Library.C109_violated_retries` [p] – The code violates C109: the documentation of `NewJob` says that the job has 3 retries; it has 30.

### C110 The disk and memory use reported for a job is what it used (partial)

Modules: `Client/UsageProps`.
What a measurement counts, when it fails, and the peaks are proved outright. The code violates the rest: any number of files under 1 MB count as nothing; a cache directory named by two targets counts twice; nothing written by a cwd_matters job is measured; one unreadable directory makes every measurement fail; a process that can't be looked into hides those below it (also from being killed); memory used between two readings is in the reported peak but not taken as having run out of memory; docker's figure is dropped when the process's own can't be read; and the 90% are of the machine's memory rounded down to 100 MB.

* `Client.Usage.C110_disk` [p, q, c] – C110: the measured use of a directory is what all the files in it and below it amount to in whole MBs (rounded down file by file), every file counting once, except those below a skipped directory; so it is never more than their bytes, and less by under a MB for each file.
* `Client.Usage.C110_error` [p, q]
* `Client.Usage.C110_counted_partial` [p, q, c] – C110: for a job with its own working directory, each measurement adds up everything in its temporary directory, everything in the cache directories named by its mounts, and everything in its working directory that is outside the mounts that already held something when the command started. (Partial: mounts placed above the working directory, and cache directories that are the temporary or working directory, are left out; see the `violated` theorems for what counts twice.)
* `Client.Usage.C110_memory` [p]
* `Client.Usage.C110_memory_partial` [p, q] – C110: if every one of them can be looked into, the measurement works and is less than what they use by under a MB each. (Partial: that is needed, see `C110_violated_hidden`.)
* `Client.Usage.C110_killed` [p, q] – C110: killing a command sends signals to the command's process and processes below it only.
* `Client.Usage.C110_killed_partial` [p, q] – C110: it sends them to all of those, if every one can be looked into. (Partial: needed, see `C110_violated_kill`; and those the command starts while it is being killed are not in the tree.)
* `Client.Usage.C110_peak_memory` [p, q] – C110: the reported peak of memory is the highest of the amounts read while the command ran and the kernel's own figure, plus what the runner itself uses (10 MB if that is not known).
* `Client.Usage.C110_ranout` [p, q] – C110: the command is taken to have run out of memory exactly if some reading was above what the job asked for.
* `Client.Usage.C110_memkill` [p, q, c] – C110: on a machine whose memory can be found out, the command is killed for its memory exactly if some reading was above what the job asked for and at least 90 times the whole hundreds of MBs of the machine.
* `Client.Usage.C110_memkill_partial` [p, q, c] – C110: so it is never killed while it uses less than its job asked for, nor below 90% of the machine's memory less 90 MB; and always when a reading is above both what was asked for and 90% of the machine's memory.
* `Client.Usage.C110_unknown` [p, q] – C110: while the machine's memory can't be found out, nothing is killed.
* `Client.Usage.C110_amount` [p, q] – C110: the amount of a reading is the memory of the processes, or docker's figure if that is higher; there is none if the former can't be read.
* `Client.Usage.C110_places` [p, q, c] – C110: where the mounts and caches of a job with its own working directory are: a mount without a directory is the working directory itself, a relative one is in it, and a relative cache directory is beside it; `..` takes back the component before it.
* `Client.Usage.C110_join` [p] – C110: joining paths: ordinary components are added, `.` and empty ones are not, and `..` takes back the one before.
* `Client.Usage.C110_peak_disk` [p, q] – C110: the reported peak of disk use is one of the measurements (or none worked), and unless the command was killed for its memory at least all of them, including the one made after it ended.
* `Client.Usage.C110_violated_small` [p, q] – C110 is violated: any number of files of one byte less than a MB count as nothing.
* `Client.Usage.C110_violated_twice` [p, q, c] – C110 is violated: a cache directory that two targets of a job name counts twice, whatever is in it.
* `Client.Usage.C110_violated_cwdmatters` [p, q, c] – C110 is violated: nothing that a job writes in its own cwd (cwd_matters) is measured.
* `Client.Usage.C110_violated_hidden` [p] – C110 is violated: what the children of a process use is not counted if that process can't be looked into, although they can.
* `Client.Usage.C110_violated_kill` [p, q] – C110 is violated: descendants of a process whose children can't be listed are left running.
* `Client.Usage.C110_violated_ranout` [p, q] – C110 is violated: a command that used any amount more memory than asked for between two readings is not taken to have run out of memory, although what is reported as its peak is more than was asked for.
* `Client.Usage.C110_violated_docker` [p] – C110 is violated: what docker says a container uses is not counted in a reading in which the memory of the command itself could not be read.
* `Client.Usage.C110_violated_ninety` [no axioms] – C110 is violated: a command that uses less than 90% of the machine's memory is killed for it.
* `Client.Usage.C110_violated_unreadable` [p, q, c] – C110 is violated: one directory that can't be read, put in its working directory by the command, makes all measurements fail, so that no disk use is reported whatever is written.

### C111 wr add --sync exits as the command did (partial)

Modules: `Cmd/SyncProps`.
Exit status 0 only after completion, the exit status of buried jobs and the presence of the job are proved for every history without a run reported as failed with exit code 0. Violations: a job whose files can't be uploaded on its last try is buried with exit code 0, so the status is 0; a look between the move of the item and the change of the job gives 255 for any exit code; a job completed before its id is looked up, or complete already, gives 1; a deleted job makes the command panic; a job buried already gives the exit code of an earlier run.

* `Cmd.Sync.C111_zero_partial` [p, q] – C111: if `wr add --sync` exits with 0, the job was completed after it was added. (Partial: it needs that no run of the job was reported as failed with exit code 0; see `C111_violated_upload`.)
* `Cmd.Sync.C111_poll_partial` [p, q] – C111: what a look at the job does: it exits with 0 if the job is complete, waits on if it's in the queue and not buried, and if it's buried and the server is through with that exits with the exit code that the last run ended with, 255 if the command was not run or was killed by a signal. (Partial: while the server is still at it, the exit code is 255 whatever it should be; and if the job is not there any more the command panics; see the `violated` theorems.)
* `Cmd.Sync.C111_there` [p, q] – C111: the job that is waited for is there, as long as nobody deletes it.
* `Cmd.Sync.C111_tries` [p, q, c] – C111: the job that is waited for is buried exactly when its last run asked for that or it has used up all its tries since it was put into the queue or kicked, a run that was not started costing none.
* `Cmd.Sync.C111_violated_upload` [p] – C111 is violated: a job whose last try exits with 0 but can't upload its files is buried, and the command exits with 0.
* `Cmd.Sync.C111_violated_early` [p, q, c] – C111 is violated: whatever a command that is to be buried exits with, a look at the wrong moment makes it 255.
* `Cmd.Sync.C111_violated_quick` [p] – C111 is violated: if the job is completed before the server has looked for its id, the command exits with 1.
* `Cmd.Sync.C111_violated_complete` [p] – C111 is violated: for a job that has already been completed the command exits with 1.
* `Cmd.Sync.C111_violated_deleted` [p] – C111 is violated: if someone deletes the job, the command panics.
* `Cmd.Sync.C111_violated_buried` [p] – C111 is violated: for a job that is buried already, the command exits with the exit code of an earlier run: the job is not run.

### C112 An uploaded file is at the path that the upload is answered with, whole and as it was sent (partial)

Modules: `Server/UploadProps`.
Uploads without a path are proved right for every interleaving and crash point as long as no upload names a path in the upload directory. The code violates the rest for uploads with a path: the file is not truncated, so that the end of an older, longer file stays; simultaneous uploads to one path mix; a failed one leaves a mixture. Temporary files of failed uploads stay for ever, and ~/~x is taken as ~/x.

* `Server.Upload.C112_content_partial` [p, q, c] – C112: if an upload without a path is answered with a path, exactly the body that was sent is in the file there, from then on, whatever other uploads there are, whenever their steps come and the server is killed. (Partial: it needs that no upload names a path in the upload directory; see `C112_violated_inside`. That no two bodies have the same checksum is a matter of md5.)
* `Server.Upload.C112_same` [p, q, c] – C112: two uploads without a path are answered with the same path exactly if they sent the same.
* `Server.Upload.C112_whole` [p, q, c] – C112: at no time, so wherever the server is killed, is there part of a file under a name made of a checksum: whatever is there was sent as the body of an upload, and has that checksum.
* `Server.Upload.C112_untouched` [p, q, c] – C112: a file outside of the upload directory is left as it was by all uploads that don't name its path.
* `Server.Upload.C112_path` [p, q, c] – C112: an upload to a path outside of the upload directory that is the only one to that path and was answered is answered with that path; its body is there, followed by what was there before beyond the length of the body.
* `Server.Upload.C112_path_partial` [p, q, c] – C112: so exactly the body is there, if there was no file there, or none that was longer. (Partial: see `C112_violated_tail`, `C112_violated_mixed`.)
* `Server.Upload.C112_violated_tail` [p, q, c] – C112 is violated: uploading something shorter than the file that is at the path given leaves the end of the old file there.
* `Server.Upload.C112_violated_mixed` [p] – C112 is violated: of two uploads to the same path at the same time, both answered, neither may be there.
* `Server.Upload.C112_violated_failed` [p] – C112 is violated: an upload that fails (here: its body ends early) leaves neither the old nor the new file at its path.
* `Server.Upload.C112_violated_inside` [p, q] – C112 is violated: an upload that names a path in the upload directory can change the file that another was answered with.
* `Server.Upload.C112_violated_left` [p] – C112 is violated: the temporary file of an upload that fails, or that the server is killed during, stays for ever.
* `Server.Upload.C112_home_partial` [p, q] – C112: a path that begins with ~/ is taken to be in the home directory. (Partial: see `C112_violated_home`.)
* `Server.Upload.C112_otherwise` [p, q] – C112: any other path is taken as it is.
* `Server.Upload.C112_violated_home` [p, q] – C112 is violated: the tildes that the name of a file in the home directory begins with are dropped, so that two files become one.
* `Server.Upload.C112_names` [p] – C112: different checksums make different names.

### C113 Commands that act on chosen jobs act on exactly those (partial)

Modules: `Cmd/ChooseProps`.
Retrying is proved in full. Killing and removing only buried jobs are proved for jobs chosen by group; with -f, -l and -y the state is not looked at: remove --buried removes jobs that are not buried, kill releases lost jobs, and kill --confirmdead kills live ones, all proved. A job killed between its reservation and its start is counted but never told.

* `Cmd.Choose.C113_retry` [p, q, c] – C113: `wr retry` makes exactly the jobs chosen that are buried ready, with all their tries, and says how many that were; nothing else is changed.
* `Cmd.Choose.C113_retry_later` [p, q] – C113: whatever happens between its two requests, `wr retry` only changes jobs that are buried at the second and were chosen (or complete) at the first.
* `Cmd.Choose.C113_kill_partial` [p, q] – C113: `wr kill` for all jobs or those of a report group marks exactly those chosen that are reserved or running for that long, not those that are lost; `wr kill --confirmdead` releases (or buries) exactly those that are lost for that long. Nothing else is changed. (Partial: with -f, -l and -y that is not so, see the `violated` theorems.)
* `Cmd.Choose.C113_kill_later` [p, q] – C113: whatever is chosen how and whatever happens between its two requests, `wr kill` only changes jobs that are reserved, running or lost at the second, and that were chosen (or complete) at the first.
* `Cmd.Choose.C113_later_rest` [p, q] – C113: whatever happens between the two requests, `wr retry` and `wr kill` leave the complete jobs, and all jobs in the queue, where they are.
* `Cmd.Choose.C113_told_partial` [p] – C113: a job that was started when it was marked is told to die when it next says that it is alive. (Partial: see `C113_violated_reserved`.)
* `Cmd.Choose.C113_dead` [p, q, c] – C113: a lost job that is said to be dead is not running afterwards: it will be retried, or is buried if it had been started and that was its last try; a try is used up exactly if it had been started.
* `Cmd.Choose.C113_remove` [p, q] – C113: what `wr remove` does, whatever happens between its two requests: exactly the jobs it counts are gone and all others are as they were; those that are gone were not running, were chosen, and (for -b with -a or -i) were buried when they were listed; no job that stays depends on one that is gone.
* `Cmd.Choose.C113_remove_partial` [p, q] – C113: if nothing happens between its two requests, `wr remove` removes every chosen job that is not running (and for -b is buried), but for those that a job that stays depends on. (Partial: -b is only heeded with -a and -i, see `C113_violated_buried`.)
* `Cmd.Choose.C113_acts` [p, q] – C113: with exactly one way of choosing, a command that has a job to act on acts.
* `Cmd.Choose.C113_one_way` [p] – C113: with no way of choosing, or more than one, nothing is done.
* `Cmd.Choose.C113_kill_count_partial` [p, q, c] – C113: `wr kill` for all jobs or those of a report group says how many it marked. (Partial: see `C113_violated_count`.)
* `Cmd.Choose.C113_violated_buried` [p, q] – C113 is violated: `wr remove --buried` with -l, -f or -y removes any job that isn't running.
* `Cmd.Choose.C113_violated_race` [p] – C113 is violated: a job that was buried when it was listed and has been retried since is removed by `wr remove --buried`.
* `Cmd.Choose.C113_violated_dead` [p] – C113 is violated: `wr kill` without --confirmdead, with -l, -f or -y, says of a lost job that it is dead, so that it can be started again although it may still be running.
* `Cmd.Choose.C113_violated_alive` [p, q] – C113 is violated: `wr kill --confirmdead` with -l, -f or -y kills a job that is running and not lost, however short a time and whatever --age is.
* `Cmd.Choose.C113_violated_reserved` [p] – C113 is violated: a job that is reserved but not started is marked and counted as one that will be killed, but its start removes the mark: it is never told.
* `Cmd.Choose.C113_violated_count` [p] – C113 is violated: `wr kill` counts a job twice that is twice in the file.
* `Cmd.Choose.C113_violated_eligible` [p] – C113 is violated: `wr remove` counts jobs that are running among the eligible.

### C114 Lost jobs are given up only when they are dead, and then they are (partial)

Modules: `Server/DeadProps`, `Server/LifeProps2`.
Proved under conditions each of which is shown to be needed. A runner cut off before it reports its start, a job killed by the user while cut off, a kill that comes after the job runs again: the command can run twice at a time or be stopped for no reason. A command that ended well while its runner was cut off is run again. Jobs recovered at start, and lost jobs whose group was used for a kill on the web page, are never found dead. A job killed once and retried is told to stop until it reports its start.

* `Server.Dead.C114_checked` [p, q] – C114: when the server is about to give up a job since its process is gone, the command of the reservation that it looked for is not running.
* `Server.Dead.C114_one_partial` [p, q] – C114: if users kill nothing, runners are heard of until they said that they started the command, and nothing is done late, then the command only runs for the job's latest reservation, and only while the job is running: never twice at a time. (Partial: see the `violated` theorems for each condition.)
* `Server.Dead.C114_one_recovered_partial` [p, q] – C114: the same for a job that was running when the server started.
* `Server.Dead.C114_found_partial` [p, q, c] – C114: a job that is lost and whose process is gone can always still be found dead by what the server does by itself: it then is delayed, or buried if it was its last try. (Partial: not for jobs that were running when the server started, and not if a user killed other jobs of its group on the web page, see `C114_violated_recovered` and `C114_violated_view`.)
* `Server.Dead.C114_heard` [p] – C114: only the runner that has the job can keep it from being lost: a runner whose reservation is over is refused.
* `Server.Dead.C114_tries` [p, q] – C114: giving the job back uses up a try only if the job was started, and then buries it if that was the last one.
* `Server.Dead.C114_violated_unstarted` [p] – C114 is violated: a runner that is not heard of before it said that it started the command loses the job: the command then is run twice at a time.
* `Server.Dead.C114_violated_killed` [p, q] – C114 is violated: a job that a user kills while its runner can not be reached is run again without it being known that it is dead.
* `Server.Dead.C114_violated_late` [p] – C114 is violated: two goroutines find the same command dead (the job was lost twice); the second kills the job when it already runs again, so that its command is told to stop although no one asked for that.
* `Server.Dead.C114_violated_overtaken` [p] – C114 is violated: and if that run is lost as well, it is given up although its command is running.
* `Server.Dead.C114_violated_finished` [p] – C114 is violated: the command has ended well, but the runner could not tell the server for some time: the server gives up the job, and the runner can not say any more that it is complete.
* `Server.Dead.C114_violated_stale` [p] – C114 is violated: a runner that reserves a job that was killed in an earlier try is told to kill it until it says that it started the command.
* `Server.Dead.C114_violated_recovered` [p] – C114 is violated: a job that was running when the server started is never found dead, not even in later tries.
* `Server.Dead.C114_violated_view` [p] – C114 is violated: if a user kills other jobs of its group on the web page, a lost job is no longer looked for.
* `Server.Dead.C114_violated_behaviours` [p] – C114 is violated: the behaviours for failed jobs are triggered by the server after the runner has already ended the job.
* `Server.C114_marked` [p, q] – C114: when nothing was heard of a reserved job for too long it is marked lost, and stays with its client, if it was reported started and not ended; a job whose start was not reported, or whose end was, is given to others after a delay and has no slots. A job that is not reserved stays as it is.

### C115 Deploying to a cloud and tearing down touch only what is ours, repeatably and completely (partial)

Modules: `Cloud/DeployProps`, `Cloud/DeployProps2`, `Cloud/DeployProps3`.
Proved for resources other than servers, and for histories in which the last Deploy() begun had worked. Violated: servers of others whose resource name begins with ours are destroyed; a server whose name is not a host name destroys itself; a Deploy() after an interrupted one reports success without private key, without rules or without an interface; after a failed Deploy() tearing down finds nothing to do and leaves the resources; servers that cannot be destroyed are left although success is reported; a kill while the file is written blocks the name for ever.

* `Cloud.Deploy.C115_others` [p, q, c] – C115: whatever happens, all key pairs, security groups, networks and routers that have another name stay exactly as they are.
* `Cloud.Deploy.C115_servers_partial` [p, q, c] – C115, partial: servers whose name does not begin with the resource name stay. Missing: the servers of others whose resource name begins with ours (`C115_violated_servers`).
* `Cloud.Deploy.C115_violated_servers` [p, q, c] – C115 is violated: when al tears down, the server of alice is destroyed.
* `Cloud.Deploy.C115_self_partial` [p, q, c] – C115, partial: a process on a server of the cloud never destroys that server, if the server's name is the name of its host. Missing: other names (`C115_violated_self`).
* `Cloud.Deploy.C115_host` [p, q] – names of up to 63 lower case letters, digits and hyphens are names of hosts
* `Cloud.Deploy.C115_long` [p, q] – names that are too long are not names of hosts
* `Cloud.Deploy.C115_violated_self` [p, q, c] – C115 is violated: a server of ours on which the process runs is destroyed by TearDown() if its name is not the name of a host, for example since it has capital letters or underscores or is too long.
* `Cloud.Deploy.C115_once` [p, q, c] – C115: once a Deploy() worked, nothing that is done later creates or changes a key pair, security group, network or router until TearDown() is called: not more Deploy()s in any session, whether they work, fail or are killed. What the process knows of the resources stays the same too, and so does its private key.
* `Cloud.Deploy.C115_complete_partial` [p, q, c] – C115, partial: a Deploy() that finds nothing with the name and reports success leaves all that is needed: its private key, a security group with all rules, and a network whose subnet the router connects; all of this is in the file. By `C115_once` it stays so. Missing: a Deploy() that finds what an interrupted one left (`C115_violated_key`, `C115_violated_rules`, `C115_violated_iface`).
* `Cloud.Deploy.C115_violated_key` [p, q, c] – C115 is violated: Deploy() is killed after it created the key pair. The next Deploy() reports success without a private key.
* `Cloud.Deploy.C115_violated_rules` [p, q, c] – C115 is violated: a rule of the security group cannot be created and Deploy() fails. The next one reports success, but the group does not open that port.
* `Cloud.Deploy.C115_violated_iface` [p, q, c] – C115 is violated: Deploy() is killed after it created the router. The next one reports success, but the router is not connected.
* `Cloud.Deploy.C115_teardown_partial` [p, q, c] – C115, partial: if the last Deploy() that was begun had worked and TearDown() reports success, or that there is nothing to do, then nothing with the name is left except servers, whatever happened between; after success the file is gone too. Missing: when the last Deploy() had failed or was killed (`C115_violated_left`), servers (`C115_violated_server_left`), and processes on a server of the cloud.
* `Cloud.Deploy.C115_violated_left` [p, q, c] – C115 is violated: Deploy() fails since there may be no more routers. Tearing down then says that there is nothing to tear down, but the key pair, the security group and the network are left.
* `Cloud.Deploy.C115_servers_gone_partial` [p, q, c] – C115, partial: a TearDown() in which every call works leaves no server whose name begins with the resource name, except the one it runs on. Missing: calls that fail (`C115_violated_server_left`).
* `Cloud.Deploy.C115_violated_server_left` [p, q, c] – C115 is violated: the cloud refuses to destroy a server. TearDown() reports success and removes the file; the server goes on running.
* `Cloud.Deploy.C115_file` [p, q, c] – C115: a TearDown() that does not report success leaves the file as it was, so that it can be tried again, also by another process.
* `Cloud.Deploy.C115_reports` [p, q, c] – C115: if a call that counts fails, TearDown() reports an error.
* `Cloud.Deploy.C115_nothing` [p, q, c] – C115: if TearDown() says that there was nothing to tear down, it has left all servers, routers, networks and security groups alone.
* `Cloud.Deploy.C115_host_run` [p] – C115: in the name of a host, each run of characters that are not allowed there is one hyphen.
* `Cloud.Deploy.C115_violated_torn` [p, q, c] – C115 is violated: Deploy() is killed while it writes the file. Then no process can ever deploy or tear down again, and all resources stay.
* `Cloud.Deploy.C115_incloud` [p, q, c] – C115: processes that run on a server of the cloud never change a network or a router, whatever they are called, keep all security groups as they are (they may add one), and do not touch any key pair if there already was one with the resource name: the deployment they run in is not damaged by them.

### C116 The servers and the head node of a cloud deployment are known in every session (partial)

Modules: `Cloud/KnownProps`.
Host names are proved outright. Servers() and HeadNode() are proved for histories in which no process is killed between a change and the next save, none goes on after TearDown(), all deploy before they spawn and nobody else deletes servers; each condition is shown to be needed. Violated: a server that is restarting when it is checked is forgotten for ever; there can be two head nodes, or none.

* `Cloud.Known.C116_servers_partial` [p, q] – C116, partial: Servers() are exactly the servers with an external IP that were spawned, by this process or an earlier one, and not destroyed or found broken since, in the order in which they were spawned. Missing: a process that was killed before it saved a change (`C116_violated_killed`), and one that goes on after TearDown() (`C116_violated_tear`).
* `Cloud.Known.C116_forgotten` [p, q] – C116: a server is only forgotten if it was destroyed, or if the cloud answered that it does not work.
* `Cloud.Known.C116_head_partial` [p, q] – C116, partial: there is at most one head node and it exists, if servers are not deleted by others, every process deployed before it spawned, and none was killed before it saved or went on after TearDown(). Missing: `C116_violated_two`.
* `Cloud.Known.C116_first_partial` [p, q] – C116, partial: as long as nothing is destroyed or found broken, HeadNode() is the first server with an external IP that was ever spawned, in every process. Missing: after the head node was destroyed (`C116_violated_no_head`).
* `Cloud.Known.C116_hostname` [p, q] – C116: servers whose names begin with the same resource name and have different UUIDs have different host names, so GetServerByName() tells them apart, if the resource name is as long as wr allows (18 characters after "wr-prod-", cmd/root.go:38-43, 159-170).
* `Cloud.Known.C116_hostname_sharp` [p, q, c] – with one more character they need not be different
* `Cloud.Known.C116_violated_killed` [p, q] – C116 is violated: the process is killed after the server was spawned and before the file is saved. The server runs, but no later process knows it.
* `Cloud.Known.C116_violated_tear` [p, q] – C116 is violated: TearDown() destroyed all servers, but the process still lists them, and if it deploys again they are in the file.
* `Cloud.Known.C116_violated_restart` [p, q] – C116 is violated: the server is being restarted when CheckServer() asks. It is forgotten for ever, though it works again.
* `Cloud.Known.C116_violated_two` [p, q] – C116 is violated: the head node was deleted with the cloud's own tools. The next deployment has two head nodes, and HeadNode() returns any one of them.
* `Cloud.Known.C116_violated_no_head` [p, q] – C116 is violated: the head node is destroyed and another server is spawned by the same process: there is no head node.

### C117 Details of jobs shown on the status web page (partial)

Modules: `Server/PushProps`, `Server/PushState`.
The code violates it: two pushes may be written in the other order, a change between reading the details and the subscription is not told of, details set after the callback looked are not, and the state in pushed details is a field that is not kept up to date for ready, dependent and reserved jobs. Proved for all histories: a subscribed page that missed no change has been written the present details, and shows them if writes are done in order and it asked once; the state is right for delayed, buried, complete and started jobs; nothing that was not asked for, nothing after closing or unsubscribing.

* `Server.Push.C117_told_partial` [p, q] – **C117**, told (partial: details that are set after the callback looked at the job, and changes between the reading of the details for a page and its subscription, are not told of): when everything has been done, an open page that is subscribed to a job has been written the details the job has, unless the subscription is one of those that missed a change.
* `Server.Push.C117_change_told` [p, q] – The same without the ghost: a page is subscribed to a job and waits for no answer; the job is moved to another sub-queue, other details of it are not set after that, and the page asks for nothing more. When everything has been done and the page is still subscribed, it has been written the details the job has.
* `Server.Push.C117_shown_partial` [p, q, c] – **C117**, shown last (partial: when the writes are done in the order in which they were started, and no page asks twice for a job): then what a page shows is what it was told, and that are the details the job has.
* `Server.Push.C117_violated_order` [p, q] – **C117**, violated by the code: the goroutines of two changes of a job write in the other order: the page shows the older details, and nothing is going to correct it.
* `Server.Push.C117_violated_between` [p, q] – **C117**, violated by the code: the job changes after its details were read for the page and before the page is subscribed. The callback finds no subscription: the page is never told.
* `Server.Push.C117_violated_release` [p, q] – **C117**, violated by the code: a job is released; its callback looks at it before the exit code and the new state are set in it, which starts no callback: the page is told the old ones.
* `Server.Push.C117_only_asked` [p, q] – **C117**, only what was asked for: a page that was written details of a job had asked for that job; and they are details the job has or had.
* `Server.Push.C117_closed` [p, q, c] – **C117**, closed: nothing is written to a page after it was closed, whatever was on its way.
* `Server.Push.C117_unsubscribed` [p, q, c] – **C117**, unsubscribed: a page has unsubscribed from a job (or from all) at a time when no callback or write was going on and no request of it was being answered: it is written no details of that job until it asks for them again.
* `Server.Push.C117_subscribes` [p, q] – **C117**, subscribed: a page that asked for jobs and is answered while it is open has been written their details and is subscribed to all of them; subscriptions that were there stay.
* `Server.Push.C117_others` [p, q] – **C117**: one page's requests change no other page's subscriptions.
* `Server.Push.C117_other_jobs` [p, q] – **C117**: unsubscribing from a job keeps the subscriptions to others.
* `Server.PushState.C117_state_partial` [p, q, c] – **C117**, the state (partial: for ready, dependent and reserved jobs it is violated): the state in the details pushed to pages is the one that listings give, for every delayed, buried, complete job, and for every job that has been started, lost or not.
* `Server.PushState.C117_violated_ready` [no axioms] – **C117**, violated by the code: when the delay of a job is over it is pushed to pages as delayed; and a new job whose dependencies are met without a state.
* `Server.PushState.C117_violated_reserved` [no axioms] – **C117**, violated by the code: a job that was reserved and is not started (the callback stops waiting for it) has the state from before; the listing in turn says lost if it had been lost in an earlier attempt.
* `Server.PushState.C117_violated_kick` [no axioms] – **C117**, violated by the code: a kicked job that waits for dependencies is pushed as ready.
* `Server.PushState.C117_violated_255` [no axioms] – **C117**, violated by the code: with 255 retries the counter of attempts left is 0 at first: a job that was released without having been started is delayed in the queue, and buried in its details.

### C118 Warnings of the scheduler (partial)

Modules: `Server/WarningsProps`.
The code violates the last parts: warnings are forgotten before the answer is sent, a page that asks before its listening goroutine runs is not told, and dismissing all dismisses those not seen.

* `Server.Warnings.C118_outstanding` [p, q] – **C118**, outstanding: after every history the server has, for every message, exactly one issue if the scheduler gave that warning since it was last read or dismissed, with how often, when first and when last; and none otherwise.
* `Server.Warnings.C118_answer` [p, q] – **C118**, answers: what a REST client is answered has every message at most once; a message is in it exactly if the warning was given since it was last taken away, and then with how often, when first and when last.
* `Server.Warnings.C118_conserved` [p, q] – **C118**, nothing twice and nothing lost inside the server: every warning the scheduler gave is counted in exactly one place: an answer, an answer that could not be sent, what was dismissed, or what is outstanding.
* `Server.Warnings.C118_read_partial` [p, q] – **C118**, read (partial: when all answers reach the clients and nothing is dismissed): a REST client has been told of every warning exactly once after the last reading.
* `Server.Warnings.C118_violated_unsent` [p, q] – **C118**, violated by the code: the warnings are forgotten before the answer is sent: when the client has gone they are in no answer.
* `Server.Warnings.C118_page_partial` [p, q] – **C118**, pages (partial: for pages that listen when they ask for the current state): from then on, until it is closed, such a page has been told of every outstanding warning with how often it was given.
* `Server.Warnings.C118_violated_join` [p, q] – **C118**, violated by the code: a page asks for the current state before the goroutine that listens for it does: it is never told of a warning that is outstanding.
* `Server.Warnings.C118_violated_unseen` [p, q] – **C118**, violated by the code: a page that had not been told of a warning dismisses all: it is gone unseen.
* `Server.Warnings.C118_not_told` [p, q] – **C118**: reading, or dismissing on one page, tells the other pages nothing: they go on showing it.
* `Server.Warnings.C118_dismiss` [p, q] – **C118**: dismissing a message leaves the others as they are, and takes the message away.

### C119 ssh sessions and commands on cloud servers (partial)

Modules: `Cloud/RunCmdProps`, `Cloud/SshProps`.
Running a command is proved outright. The limit of sessions is proved if connections are only forgotten when nobody uses a session. The code violates the rest: file transfers never give their session back, a connection on which making a session failed once is not used again, and WaitUntilReady forgets connections in use, after which closing a session kills the program or lets a connection carry 11.

* `Cloud.Ssh.C119_limit_partial` [p, q, c] – **C119**, limit (partial: if connections are only forgotten when nobody uses a session): after every history, no connection carries more than 10 sessions, even counting those that are still being made, those that were given up, and those for sftp; and the program has not died.
* `Cloud.Ssh.C119_reuse` [p, q] – **C119**, reuse: a new connection is made only if the counters of all are at the maximum; otherwise the newest of those below it is used, and its counter is one more.
* `Cloud.Ssh.C119_given_back` [p, q, c] – **C119**, given back: closing a session that came up through SSHSession makes its connection have room again.
* `Cloud.Ssh.C119_violated_transfer` [p, q] – **C119**, violated by the code: the session of a file transfer is never given back. After n transfers, one after the other and all of them finished, there are as many connections as tens were begun, whatever n; none carries a session, and all but the last are never used again.
* `Cloud.Ssh.C119_violated_failed` [p, q] – **C119**, violated by the code: a session could not be made on a connection that has no other: the connection is not used again, whatever is done (until WaitUntilReady forgets it).
* `Cloud.Ssh.C119_violated_dies` [p] – **C119**, violated by the code: the connections are forgotten while somebody has a session: when that is closed the program dies.
* `Cloud.Ssh.C119_violated_limit` [p] – **C119**, violated by the code: or it makes the counter of a new connection too small, which then carries more than 10 sessions.
* `Cloud.RunCmd.C119_one_answer` [p, q, c] – **C119**, one answer: whatever the order of steps, what RunCmd returns -- error, stdout, stderr -- is all from the command, which then has ended, or all from the cancellation, and then the server was destroyed or the context done. They are never mixed.
* `Cloud.RunCmd.C119_not_cancelled` [p, q, c] – **C119**, not cancelled: when neither the server is destroyed nor the context done, the result is the command's.
* `Cloud.RunCmd.C119_no_panic` [p, q, c] – **C119**, no panic: neither Destroy nor the end of the call panics, in any order; and Destroy does not block on the channel.
* `Cloud.RunCmd.C119_destroy_free` [p, q, c]
* `Cloud.RunCmd.C119_bounded` [p] – **C119**, ends (1): the steps the program does by itself are bounded: each leaves less to do.
* `Cloud.RunCmd.C119_not_stuck` [p, q, c] – **C119**, ends (2): it never gets stuck: as long as the call has not returned, or a goroutine of it has not ended, the program can do a step, unless everything waits for the command, which has not ended -- and if the call has not returned either then neither the server was destroyed since the call began nor is the context done.

### C120 Stopping the manager (partial)

Modules: `Server/StopProps`.
That exactly one call stops the server, the order of its steps, what is closed after it and that it ends are proved outright. That there are no runners afterwards is proved if no callback that had begun before asks for runners. The code violates the rest: a second Stop(true) returns at once, a callback that had begun makes runners start afterwards, Stop during a drain kills the process when the queue is gone, a second signal ends the process with the database open, a runner that touches too late is never told, and only one Block is ever told.

* `Server.Stop.C120_once` [p, q, c] – **C120**, once: whatever is called and whatever signals come, at the same time or not, exactly one call stops the server if any was made; the others return at once, and closing a channel twice never kills the process.
* `Server.Stop.C120_effect` [p, q, c] – every request to stop has that effect: afterwards the server is not up, and there is the call that stops it
* `Server.Stop.C120_down` [p, q, c] – **C120**, down: when the call that stops the server has returned, the database and the socket are closed and the queue is gone; nothing that comes later changes that, and no request is answered.
* `Server.Stop.C120_order` [p, q, c] – **C120**, order: the database is open until the socket is closed, and the queue is there until the database is closed; touches are answered, all with a kill, from the first step until the socket is closed.
* `Server.Stop.C120_told` [p, q, c] – **C120**, told: from the first step of the call until the socket is closed, every runner that is alive and touches is told to kill its command.
* `Server.Stop.C120_told_only` [p, q, c] – and no runner is told before the server is being stopped
* `Server.Stop.C120_goes_on` [p, q, c] – **C120**, goes on: the call can always do its next step, unless it waits for runners that are alive;
* `Server.Stop.C120_ends` [p, q, c] – and with eleven steps it has ended
* `Server.Stop.C120_signal` [p, q, c] – the first signal, and the expiry of the certificate, stop the server as Stop does, waiting for the runners, and say why
* `Server.Stop.C120_drain` [p, q, c] – Drain: from then on, as long as the server is up, no more runners are asked for, and the server stops, waiting for the runners, at the first look that finds no job running, and not before.
* `Server.Stop.C120_block_partial` [p, q, c] – **C120**, Block (partial: called before the server is stopped; and of several callers only one is told): once the call that stops the server has ended, a Block has returned with its reason, or is able to; with that one, none returns anything else.
* `Server.Stop.C120_block_one` [p, q, c] – at most one Block ever returns
* `Server.Stop.C120_runners_partial` [p, q, c] – **C120**, runners (partial: if no callback that had begun before asks the scheduler for runners): when a call that waits, and did stop the server, has passed that point, and also when it has returned, there are no runners, and none start.
* `Server.Stop.C120_violated_second` [p] – **C120**, violated by the code: a second Stop(true) returns at once, while there are runners and the database is open.
* `Server.Stop.C120_violated_runners` [p] – **C120**, violated by the code: a callback that had begun before makes runners start after the call has waited for them.
* `Server.Stop.C120_violated_drain` [p] – **C120**, violated by the code: if Stop is called while the server drains, the goroutine that waits for the jobs to end kills the process when the queue is gone; a Block that waits is never told.
* `Server.Stop.C120_violated_signal` [p] – **C120**, violated by the code: a second signal, or one after Stop was called, ends the process with the database open.
* `Server.Stop.C120_violated_untold` [p, q, c] – **C120**, violated by the code: Stop without waiting: a runner that did not touch in time is never told, and lives on.
* `Server.Stop.C120_violated_block` [p] – **C120**, violated by the code: of two callers of Block only one is ever told; and a Block after the server was stopped waits for ever.

### C121 What `wr status` prints is what the jobs are (partial)

Modules: `Cmd/StatusProps`.
Partial because the code violates two cases of the summary: reserved jobs, which the counts format calls running, are in no number of it (the code works out the state in which reserved is running and then counts under the other one), and jobs of a report group that is named 'all above' are left out or counted twice. The mean and standard deviation of the values are those of package runningvariance, which is not modelled.

* `Cmd.Status.C121_counts` [p, q] – C121: each number of the counts format is the number of jobs in that state; reserved jobs are running.
* `Cmd.Status.C121_counts_total` [p, q] – C121: together they are all the jobs.
* `Cmd.Status.C121_unlimited` [p] – C121: the counts, summary and plain formats ask for every job, whatever the limit.
* `Cmd.Status.C121_plain` [p, q] – C121: the plain format has a line for every job, in order, with its state, and the exit code is 0 just when none is buried.
* `Cmd.Status.C121_host` [p, q] – C121: with a host only the jobs of that host (its name, id or address) are shown, in the same order; without, all.
* `Cmd.Status.C121_summary_lines_partial` [p, q, c] – C121: the summary has one line for each report group of the jobs, in order of name, and, if there are several, a last one for all.
* `Cmd.Status.C121_summary_numbers_partial` [p, q, c] – C121: each number of a line is the number of the jobs it is about that are in that state. Missing: reserved jobs, which are running to every other format, are not counted at all.
* `Cmd.Status.C121_summary_total_partial` [p, q, c] – C121: the numbers of a line add up to the jobs it is about. Missing: when one of them is reserved.
* `Cmd.Status.C121_summary_usage_partial` [p, q, c] – C121: the statistics of a line are those of its complete jobs, each once; the period, shown for two or more, goes from the first start to the last end.
* `Cmd.Status.C121_summary_buried_partial` [p, q, c] – C121: the line of a report group names every buried job of the group once, under its exit code and reason, and no other job; the groups are in order of their text, each once. The line of all groups names none.
* `Cmd.Status.C121_group_text` [p, q] – C121: the text that names a bury group determines the exit code and the reason, given that codes are written in digits.
* `Cmd.Status.C121_details` [p, q, c] – C121: the details format has an entry for every job, and with the numbers of others it stands for the entries account for all of them.
* `Cmd.Status.C121_details_job` [p] – C121: a job's output is shown just when the job ended with a code other than 0 (and its jobs were not chosen by a file); a job that could be listed has a status, running only if it is reserved or running.
* `Cmd.Status.C121_details_stats` [p] – C121: statistics are shown of jobs that exited, called those of a previous attempt unless the job is complete, and of jobs that run; what is known about a job that neither exited nor runs is shown as details.
* `Cmd.Status.C121_json` [p, q, c] – C121: the state of the JSON format is the state of the job, or lost for a running job that was lost.
* `Cmd.Status.C121_violated_reserved` [p] – C121 violated: a reserved job, running to the counts format, is in no number of the summary.
* `Cmd.Status.C121_violated_name` [p] – C121 violated: the jobs of a report group named "all above" are not in the summary, or are counted twice.

### C122 `wr mod` changes what its options say and nothing else (partial)

Modules: `Cmd/ModProps`.
Partial because the code violates cases: an empty value does not turn off limit groups and dependencies on groups but sets an empty name, dependencies on commands and the queue cannot be turned off, any option about the cloud or queues takes away all others of the job, priority and retries are taken modulo 256, a time of 0 is ignored, and there is no option for modules. The parsing of sizes, times and JSON is a parameter.

* `Cmd.Mod.C122_changed_partial` [p, q, c] – C122: on every chosen job that is not running every option that was given has its effect, and nothing else changes, and its new and old key are printed; or the job is left exactly as it was, because with the changes it would have the key of another job (one the server has, or one that was just modified). Missing (and violated): values of "", numbers outside 0-255, a time of 0, the options about the cloud and queues, modules.
* `Cmd.Mod.C122_other_partial` [p, q, c] – C122: the options about cloud servers and queues: when one of them is given, the job has exactly those given, and loses the others.
* `Cmd.Mod.C122_other_values` [p, q, c] – C122: what those given are.
* `Cmd.Mod.C122_behaviours` [p, q, c] – C122: behaviours: the triggers for which one behaviour is given have it afterwards; "" turns off by the behaviour "nothing"; others are left alone (see C87 for more than one behaviour).
* `Cmd.Mod.C122_cmd_deps` [p, q, c] – C122: dependencies on commands are given in pairs; an odd number is refused and nothing is modified.
* `Cmd.Mod.C122_refused` [p, q, c] – C122: without a choice of jobs, with a choice made twice, and when a new command line is given for several jobs, nothing is modified.
* `Cmd.Mod.C122_asked` [p, q, c] – C122: and otherwise, if the values are understood, the server is asked.
* `Cmd.Mod.C122_override` [p, q, c] – The words for --override: "0", "no" and "n" are 0, "1", "higher" and "h" are 1, "2", "always" and "a" are 2, and nothing else is understood.
* `Cmd.Mod.C122_violated_off` [p, q, c] – C122 violated: "" does not turn off limit groups or dependencies on groups, but sets one with an empty name; dependencies on commands cannot be turned off, as "" is refused; neither can the queue.
* `Cmd.Mod.C122_violated_other` [p, q, c] – C122 violated: an option about the queue takes away the flavor of the job.
* `Cmd.Mod.C122_violated_range` [p, q, c] – C122 violated: numbers out of range are not refused but taken modulo 256.
* `Cmd.Mod.C122_violated_time` [p, q, c] – C122 violated: a time of 0 is understood, but not set.
* `Cmd.Mod.C122_violated_modules` [p, q, c] – C122 violated: no options change the modules of a job, although `wr add` has an option for them.

### C123 wr manager start, stop, drain and status treat the manager, its files and its log as documented (partial)

Modules: `Cmd/ManagerProps`.
Partial because the code violates the full property: with a stale pid file stop terminates an unrelated process, says the manager was shut down and deletes the token (C123_violated_stale); without a pid file only one of two managers is stopped (C123_violated_two); after a drain with nothing running a repeated drain is refused (C123_violated_drain_again); the message about a non-responsive manager is unreachable (C123_violated_status); a log line of 64 KiB hides later errors (C123_violated_log).

* `Cmd.Manager.C123_log_partial` [p, q, c] – C123 (partial: a line of 64 KiB or more stops the reading of the log, see below). The errors shown are exactly the error lines of the log since the last line that says a manager started, in order; all of the error lines if there is no such line; none if there is no log.
* `Cmd.Manager.C123_log_last` [p, q, c] – The last line counts even if it isn't ended, and carriage returns are dropped.
* `Cmd.Manager.C123_violated_log` [p, q, c] – The property fails for long lines: after a line of 64 KiB without an error in it, no later error is shown, and an error from before the last start is.
* `Cmd.Manager.C123_stop_files` [p, q, c] – C123. The token and the address of the manager are forgotten exactly when `wr manager stop` says that it stopped the manager; when it fails they are kept, so that runners can go on talking to the manager.
* `Cmd.Manager.C123_stop_gone_partial` [p, q, c] – C123 (partial: see the violations). When `wr manager stop` says that it stopped the manager, the manager it means is gone: no manager answers any more at the addresses that were used to look for one, or the one whose address it names no longer runs.
* `Cmd.Manager.C123_stop_only` [p, q, c] – C123. It signals only the process named in the pid file and a manager on this machine that it is connected to, asks only a manager elsewhere that it is connected to to shut down, and no other process or manager ends. A manager elsewhere ends only if the token is right.
* `Cmd.Manager.C123_stop_nothing` [p, q] – C123. If no manager answers and there is no pid file, `stop` fails and changes nothing; if the process in the pid file can't be ended and no manager answers, the same.
* `Cmd.Manager.C123_stop_works` [p, q, c] – C123. `stop` works: when the one manager that answers runs on this machine, ends when it gets a SIGTERM, and the pid file names it or there is no pid file, `stop` reports success, the manager and its process are gone, and nothing of it is left behind but, if it runs in the foreground, a pid file that was there.
* `Cmd.Manager.C123_stop_elsewhere` [p, q] – C123. A manager elsewhere, found through its address, is stopped through a request if it has our token and does as it is asked; without the right token it goes on, and `stop` fails.
* `Cmd.Manager.C123_violated_stale` [p, q] – The property fails with a stale pid file: after a crash of the manager the pid may belong to another process of the user; `stop` terminates that process, says that the manager was gracefully shut down, and forgets the token that the runners of the crashed manager need.
* `Cmd.Manager.C123_violated_two` [p, q] – Without a pid file it fails with two managers: the one at the configured address still answers after a successful `stop`.
* `Cmd.Manager.C123_drain` [p, q] – C123. `wr manager drain` fails, and changes nothing, if no manager answers or it doesn't accept our token; otherwise the manager drains, and the token is forgotten exactly when the manager says that no job is running.
* `Cmd.Manager.C123_violated_drain_again` [p, q] – "It is safe to repeat this command": not so. When nothing is running, the manager goes on for a while, until the runners have exited, but the token is gone: a second `drain` is refused, and so is a `stop` of a manager elsewhere.
* `Cmd.Manager.C123_status_partial` [p, q, c] – C123 (partial: see the violation). `wr manager status` reports a manager only if it answers, and says "stopped" only if none does and there is no pid file. It fails, when there is a pid file, if no manager answers or there is no token.
* `Cmd.Manager.C123_violated_status` [p, q, c] – The property fails: the message that the manager "is supposed to be running with pid … but is non-responsive" is never shown, since connecting has already ended the command.
* `Cmd.Manager.C123_start` [p, q] – C123. `wr manager start` refuses to start a second manager when one answers, and changes nothing then or when an option is wrong; it reports success only if a manager answers.
* `Cmd.Manager.C123_start_options` [p, q, c] – C123. The options are accepted exactly when the scripts given can be read, the mount JSON is good, the user name has at most 18 characters, and, for Kubernetes, there is a namespace and either a config map or a script.
* `Cmd.Manager.C123_start_token` [p, q] – C123. A manager started after a crash (the token file is still there) uses the token of its predecessor, so that runners can reconnect; after a clean `stop` the token is a new one.
* `Cmd.Manager.C123_start_stop` [p, q] – C123. A manager that was started can be stopped: when no manager ran, one was started successfully and it obeys signals, `stop` succeeds and leaves no manager, pid file, token or address.

### C124 Requests handled at the same time neither hand a job to two clients nor lose or exceed the slots of limit groups (partial)

Modules: `Server/RaceCalmProps`, `Server/RaceMoreProps`, `Server/RaceProps`.
Counts never exceed limits in any history. One client per job, the limit on what clients work on, and no wrong refusals hold in every interleaving if clients ask for the end of a job once; a repeated release can take the job from the next client and hand it out twice (C124_violated_two_clients). Slots are all given back if no job is handed out while the end of its last run is still being noted; otherwise a slot leaks (C124_violated_leak) and a good run cannot be archived (C124_violated_archive).

* `Server.Race.C124_count` [p, q] – C124. However requests interleave, and whatever clients send, no limit group's count exceeds its limit.
* `Server.Race.C124_one_client_partial` [p, q, c] – C124 (partial: see the violation for clients that repeat themselves). In every interleaving, at most one client has a job at any time, and then the job is running and reserved by it.
* `Server.Race.C124_limit_partial` [p, q, c] – C124. In every interleaving of proper requests the clients are never working on more jobs of a limit group than its limit.
* `Server.Race.C124_accepted_partial` [p, q, c] – C124. In every interleaving, a client that was handed a job and asks once for its end is never told that the job isn't its, or isn't running, or doesn't exist.
* `Server.Race.C124_no_leak_partial` [p, q, c] – C124 (partial: `C124_violated_leak` shows what is missing). If no job is handed out before the end of its last run has been noted, every slot of a limit group is given back: when no request is being handled and no client has a job, all counts are zero.
* `Server.Race.C124_slots_partial` [p, q, c] – C124 (partial, as above). While no request is being handled, the count of a limit group is the number of slots of the jobs that clients are working on, and these jobs are the ones that remember their slots.
* `Server.Race.C124_archived_gone` [p, q, c] – C124. In every interleaving, even with repeated requests: when a client has been told that its job is archived, the job has left the queue, for good.
* `Server.Race.C124_not_started_kept` [p, q, c] – C124. In every interleaving, even with repeated requests: a job that clients take and give back without having started it loses none of its retries, and is not buried.
* `Server.Race.C124_violated_two_clients` [p, q] – C124 is violated when a client repeats its request to release a job (as it does when the first is not answered in time): the server tests that the job is reserved by the client, and only later moves the job in the queue. If the job has been reserved by another client meanwhile, it is taken from that client and handed out again: two clients run it at the same time.
* `Server.Race.C124_violated_leak` [p, q] – C124 is violated when a buried job is kicked (or the delay of a released one ends) and reserved again before the server has dealt with its end: the slot of the first reservation is never given back, so that the group has one slot less for ever, although nobody is working.
* `Server.Race.C124_violated_archive` [p] – C124 is violated by the same race in another way: the second run ends well, but the end of the first is noted for it, and the request to archive it is refused.

### C125 A start of the server keeps its token, certificates and key, or makes them, at whatever moment an earlier start died (partial)

Modules: `Server/StartMoreProps`, `Server/StartProps`.
That existing files are kept, what token is used, and that a fresh start works are proved outright. That later starts work is proved unless a start died (or failed) while it made the certificates: then no start works again (C125_violated_crash, C125_violated_crash_key). A start that dies while it rewrites the token loses it (C125_violated_token); a missing CA is not generated, contrary to the documentation (C125_violated_ca); two starts at a time can mix up certificate and key (C125_violated_two).

* `Server.Start.C125_new_token` [p, q, c] – C125. A new token is 43 bytes that can be put in a URL as they are, and different random bytes give different tokens.
* `Server.Start.C125_keep` [p, q, c] – C125. Whatever happens, wherever the process dies and however often it is tried, no existing certificate, CA or key is changed.
* `Server.Start.C125_token` [p, q, c] – C125. A server that starts has the token of the token file if that has one, otherwise a new one, and afterwards the file has the token of the server.
* `Server.Start.C125_failed_token` [p, q, c] – C125. A start that fails leaves the token file as it was.
* `Server.Start.C125_stuck` [p, q, c] – C125. If the certificate or the key is missing but not all three files are, no start ever works, and none changes anything.
* `Server.Start.C125_fresh` [p, q, c] – C125. In a fresh directory, a start in which nothing goes wrong works: it makes a CA, a certificate signed with it for the domain, and its key, which only the owner can read. It says so, and a client with this CA and the token connects for a year, and not later; without the token it is denied.
* `Server.Start.C125_restart_partial` [p, q, c] – C125 (partial: not if the process dies while it makes the certificates). However many starts follow, fail or die at whatever moment, once the certificates were made a start in which nothing goes wrong works until a year has passed, with the same certificate.
* `Server.Start.C125_bad_certs` [p, q, c] – C125. Nothing works with a certificate or CA that has expired, is no certificate, or that doesn't belong to the key; and then nothing is written.
* `Server.Start.C125_own_certs` [p, q, c] – C125. A server that starts with the user's files shows all certificates of the certificate file, in their order. Its key is that of the first. The first certificate of each file has not expired; and the server stops itself when the first of the two does.
* `Server.Start.C125_connects_only` [p, q] – C125. A client works only with a server whose token it has, that has not stopped itself, and whose certificate is for the client's domain, has not expired, and is signed by a CA of the client's CA file that has not expired.
* `Server.Start.C125_violated_crash` [p, q, c] – C125 is violated by a crash: if the process dies while it makes the certificates in a fresh directory, after the first file was begun and before the key was, no later start ever works.
* `Server.Start.C125_violated_crash_key` [p, q, c] – C125 is violated by a crash when the key file has just been begun, too: it stays empty for ever.
* `Server.Start.C125_violated_token` [p, q, c] – C125 is violated by a crash in another way: the token of the token file is kept, but the file is truncated and written again. If the process dies in between, the next start makes a new token, and the clients of before are denied.
* `Server.Start.C125_violated_ca` [p, q, c] – C125 is violated when only the CA file is missing: the documentation of the configuration says it would be generated.
* `Server.Start.C125_violated_two` [p, q, c] – C125 is violated by two servers that start at the same time: both make certificates, and the certificate may be that of one and the key that of the other. No later start works.

### C126 Commands on cloud servers (partial)

Modules: `Sched/CloudRunProps`.
All of the statement is proved for every history except that a server of an earlier manager is kept while its commands run: that holds only as long as each check reaches the server (C126_recovered_kept_partial). One failure of ssh at a check, or when a second command of the same server is recovered, destroys the server with its commands (C126_violated_unreachable, C126_violated_second).

* `Sched.CloudRun.C126_capacity` [p, q, c] – C126: whatever happens, the commands on a server were never promised more cores, memory or disk together than the server has.
* `Sched.CloudRun.C126_given_back` [p, q, c] – C126: all of the space is given back: a command can start on a server that can be used whenever it fits beside the commands that run there now.
* `Sched.CloudRun.C126_start` [p] – A command starts only on a server that is in use, that is not bad and was not destroyed.
* `Sched.CloudRun.C126_failed` [p, q, c] – C126: when a command on a server fails, the user is told and no other command ever starts on that server, whatever happens afterwards: not even when the server can be reached.
* `Sched.CloudRun.C126_failed_local` [p, q] – A command that fails on the manager's own machine, or that ended because its server was destroyed, changes nothing about the server except its space.
* `Sched.CloudRun.C126_unreachable` [p, q] – C126: a server that could not be reached gets no command until it is found to be reachable again; then it is as before.
* `Sched.CloudRun.C126_told` [p, q, c] – C126: what the user was last told about a server is what the scheduler thinks of it.
* `Sched.CloudRun.C126_cleanup` [p, q, c] – C126: after the scheduler was cleaned up no command starts, and no server is left: not those there were, and not those that come up later.
* `Sched.CloudRun.C126_new_server` [p, q, c] – A new server gets no command before the queue is gone through again; then it can get commands.
* `Sched.CloudRun.C126_recovered_kept_partial` [p, q, c] – C126 (partial: as long as every host can be reached with the user name given): no host is destroyed while a command of the earlier manager runs there.
* `Sched.CloudRun.C126_recovered_watched` [p, q, c] – C126: a host that was recovered is looked after until it is destroyed or the manager stops,
* `Sched.CloudRun.C126_recovered_idle` [p, q] – and when all the commands there have ended it is destroyed at the next check.
* `Sched.CloudRun.C126_recovered_once` [p, q, c] – C126: however often a host is recovered (once for each of its commands), it is looked after once.
* `Sched.CloudRun.C126_recovered_forever` [p, q, c] – C126: with servers that are kept for ever, or hosts that are not ours, nothing is looked after or destroyed.
* `Sched.CloudRun.C126_pattern` [p] – What is looked for on a host is the same for all commands of an executable without spaces in its path, whatever their other arguments.
* `Sched.CloudRun.C126_violated_unreachable` [p] – The code violates the property: if a host cannot be reached at one of the checks, it is destroyed with the commands that run there.
* `Sched.CloudRun.C126_violated_second` [p] – The code violates the property: the same when the second command of the host is recovered, though the host is already looked after.

### C127 Jobs wait for what they depend on, and not longer (partial)

Modules: `Server/WaitsProps`.
Safety is proved for all calm histories: requests are handled one at a time, a live job is not re-added with other details, a job on whose command others depend is not added or renamed after them (the documentation calls these dependencies static), groups are changed only to ones nobody depends on, and jobs that were complete before are not changed. Exactness and progress are proved for the plain ones of these, where nothing is changed and every added job is new. Outside these the code violates the property, in the ways shown by the eight violations.

* `Server.Waits.C127_handed_out_partial` [p, q, c] – C127. Along every calm history, with restarts: no job is handed out while a job that it depends on is incomplete.
* `Server.Waits.C127_running_partial` [p, q, c] – C127. Along every calm history, with restarts: nothing that a running or a ready job depends on is incomplete.
* `Server.Waits.C127_delete_partial` [p, q, c] – C127. A job that another one in the queue depends on cannot be deleted.
* `Server.Waits.C127_in_queue_partial` [p, q, c] – C127. Every incomplete job is in the queue, and the queue has no other.
* `Server.Waits.C127_no_longer_partial` [p, q, c] – C127. Along every plain history, with restarts: a job that waits depends on an incomplete job.
* `Server.Waits.C127_freed_partial` [p, q, c] – C127. When the last job that a waiting job depends on is archived, the waiting job becomes ready, in the same request.
* `Server.Waits.C127_progress_partial` [p, q, c] – C127. If the dependencies of the incomplete jobs have no cycle (there is a rank that falls along them), then work can go on: as long as there are incomplete jobs, one of them is not waiting, and everything that waits, waits in the end for such a job.
* `Server.Waits.C127_comes_back_partial` [p, q, c] – C127. Adding a job brings back every complete job that depends on one of its groups: it is incomplete again, with the same dependencies, and waits.
* `Server.Waits.C127_violated_lost` [p, q, c] – C127 is violated when a job is archived while one that depends on it is being added: the dependencies are looked up before, and the queue gets the new job after the archived one has left it. The new job depends on nothing that is incomplete, and waits; and whatever happens to the jobs, it is not handed out, until it is changed or deleted, or the server is restarted.
* `Server.Waits.C127_violated_early` [p, q] – C127 is violated when a job is added to a group at the time at which one that depends on the group is added: neither request sees the other's job, and the second job runs although the first is incomplete.
* `Server.Waits.C127_violated_new_group` [p, q] – C127 is violated when the groups of a job are changed: those that depend on its new group do not wait for it.
* `Server.Waits.C127_violated_old_group` [p, q, c] – C127 is violated in the other direction: those that depend on its old group go on waiting for it.
* `Server.Waits.C127_violated_renamed` [p, q] – C127 is violated when the command of a job is changed, and with it its key: those that depend on it go on waiting for it, but their records name the old key, so that after a restart they don't.
* `Server.Waits.C127_violated_stale` [p, q, c] – C127 is violated when a job is deleted and its command added again, without the group: those that depend on the group wait for it, because the lookups of the deleted job are kept.
* `Server.Waits.C127_violated_running` [p, q] – C127 is violated when a job is added to a group that a running job depends on: the running job waits again, the runner that has it cannot archive it, and when the new job is complete it is handed out again.
* `Server.Waits.C127_violated_cycle` [p, q] – C127 is violated by jobs that depend on each other: they are accepted, never handed out, and cannot be deleted.

### C128 The LSF emulation submits, lists and kills what it is told to (partial)

Modules: `Cmd/LsfKill`, `Cmd/LsfList`, `Cmd/LsfProps`.
Scripts, directives, inheritance, listings and formats are settled for all inputs. Numbers are unique and kept only until the manager is restarted. bkill acts on nothing but the numbers given and prints one line for each in every interleaving; that these lines are true, and that it ends, is proved only if the jobs are not lost, reserved or depended on and nobody else changes them; the violations show that the conditions are needed.

* `Cmd.Lsf.C128_script` [p, q, c] – C128, `bsub`. For every script: the command is its lines, without white space at their ends, but for the directives; report group, cores and memory are those of the last `-J`, `-n` and `-M` that have a value (of the right kind), else "bsub", 1 and 1000; the memory is the user's (override 2) exactly if it was given; and the requirements group is the first word of the first line with a command.
* `Cmd.Lsf.C128_directive` [p, q, c] – C128, `bsub`. A line `#BSUB -f value` is the directive that it looks like.
* `Cmd.Lsf.C128_directive_blanks` [p, q, c] – C128, `bsub`. And so is one with any white space (at least one) before the flag and before the value.
* `Cmd.Lsf.C128_columns` [p, q, c] – C128, `bjobs -o`. The columns are those of LSF that the documentation names (cmd/lsf.go:231).
* `Cmd.Lsf.C128_command_partial` [p, q, c] – C128, `bsub`. A script all of whose lines begin and end with text, and that has no directives, is the command unchanged.
* `Cmd.Lsf.C128_nothing` [p, q, c] – C128, `bsub`. Nothing is submitted exactly if there is no line but directives.
* `Cmd.Lsf.C128_inherited` [p] – C128. However deep: a job added with bsub by (…) the command of a job in bsub mode has its options for the scheduler and its deployment, whatever the deployments are when bsub is called; and its mounts, unless the jobs share a disk.
* `Cmd.Lsf.C128_numbers_partial` [p, q, c] – C128. As long as the manager runs (and bsub mode is not set by modifying jobs), no two jobs in the queue have the same number, whatever is added, comes back, ends or is deleted.
* `Cmd.Lsf.C128_number_kept_partial` [p, q, c] – C128. A job keeps its number for as long as it is in the queue and the manager runs.
* `Cmd.Lsf.C128_number_given` [p] – C128. Jobs added with bsub have a number, others have none.
* `Cmd.Lsf.C128_bkill_only` [p, q, c] – C128, `bkill`. Whatever happens meanwhile, it kills and deletes only jobs with numbers that were given.
* `Cmd.Lsf.C128_bkill_lines` [p, q, c] – C128, `bkill`. Whatever happens meanwhile, when it ends there is exactly one line for each number given, and no other.
* `Cmd.Lsf.C128_bkill_partial` [p, q, c] – C128, `bkill`. If jobs have different numbers, those with numbers that were given are not lost or reserved and have no dependants, nothing else happens to them and no request fails: when bkill ends, the jobs with these numbers are gone, each of them was reported as being terminated, and the other numbers as finished.
* `Cmd.Lsf.C128_bjobs` [p, q, c] – C128, `bjobs`. For every list of jobs: one line per job that has a number, in order, with the columns asked for; a header before them unless not wanted; or one line saying that there is none.
* `Cmd.Lsf.C128_format_delimiter` [p, q, c] – C128, `bjobs -o`. Columns in any case, separated by one space and followed by a delimiter in quotes, whatever it is, are understood as such.
* `Cmd.Lsf.C128_format` [p, q, c] – C128, `bjobs -o`. And so are columns alone, with a space as delimiter.
* `Cmd.Lsf.C128_format_only` [p, q, c] – C128, `bjobs -o`. Whatever is asked for, only columns that exist are shown.
* `Cmd.Lsf.C128_stat` [p, q, c] – C128, `bjobs`. States are told apart as LSF does: waiting, running, unknown, failed, done.
* `Cmd.Lsf.C128_flags` [p, q] – C128, flags. Flags without values: the arguments that are flags are taken out, the others stay, both in order.
* `Cmd.Lsf.C128_flags_all` [p] – C128, flags. With values too, no argument is lost or doubled.
* `Cmd.Lsf.C128_violated_indent` [p, q, c] – C128 fails: white space at the beginning of lines is lost, though it has meaning in what the shell passes on.
* `Cmd.Lsf.C128_violated_empty` [p] – C128 fails: a script of empty lines is submitted as a command, though none is specified.
* `Cmd.Lsf.C128_violated_config` [p, q, c] – C128 fails: if the variable has a JSON without requirements, bsub crashes; what it says is optional.
* `Cmd.Lsf.C128_violated_restart` [p] – C128 fails: after the manager was restarted, new jobs get the numbers of those that are still there.
* `Cmd.Lsf.C128_violated_renumbered` [p] – C128 fails: a command was submitted as job 1, and submitted again (which is refused as a duplicate). After a restart of the manager it is job 2, and there is no job 1.
* `Cmd.Lsf.C128_violated_modified` [p] – C128 fails: setting bsub mode of a job while another is added gives both the same number.
* `Cmd.Lsf.C128_violated_never_ends` [p, q] – C128 fails: if the job succeeds before the kill reaches it, bkill never ends, whatever happens but that the server fails or the job is added again, and says nothing about any job.
* `Cmd.Lsf.C128_violated_runs` [p, q] – C128 fails: a job that was reserved meanwhile is reported as being terminated, and runs.
* `Cmd.Lsf.C128_violated_lost_job` [p, q] – C128 fails: so is a lost job, which stays.
* `Cmd.Lsf.C128_violated_dependants` [p, q] – C128 fails: so is a job that others depend on, which stays.
* `Cmd.Lsf.C128_violated_finished` [p, q] – C128 fails: a running job that could not be killed is reported as finished.
* `Cmd.Lsf.C128_violated_zero` [p, q] – C128 fails: `bkill 0` deletes a job that was not added with bsub.
* `Cmd.Lsf.C128_violated_same_number` [p, q] – C128 fails: of two jobs with the same number (C128_violated_restart) only one is ended.
* `Cmd.Lsf.C128_violated_crash` [p, q] – C128 fails: bkill crashes if the job it killed is deleted by someone else before it looks again.
* `Cmd.Lsf.C128_violated_format` [p, q, c] – C128 fails: a delimiter that is not at the end joins the columns around it, and nothing is shown.
* `Cmd.Lsf.C128_violated_flags` [p, q, c] – C128 fails for other commands: the value of an option of `wr status` is taken out.

### C129 Config files a user names are on every cloud server their commands run on (partial)

Modules: `Cloud/ConfigAdd`, `Cloud/ConfigProps`.
Proved for all specifications, computers and histories under conditions that the violations show to be needed: destinations without blanks, at most one colon, uploads that worked, and for jobs added on the manager's own computer nothing is claimed (stale files). filepath.Clean and shell characters other than blanks are not modelled.

* `Cloud.Config.C129_relative` [p] – C129: a destination that isn't an absolute path, and does not begin with a tilde and a slash, is one in the home directory, with the characters it has (those of other users' homes are not meant by a tilde).
* `Cloud.Config.C129_grammar` [p, q] – C129: with paths that have neither commas nor colons, what is written for a list of pairs is understood as these pairs, in order
* `Cloud.Config.C129_copied_partial` [p, q] – C129: if copying worked, then each file named that is there has been copied to its place, with mode 600 and the time of the original, unless one that was named later goes to the same place (paths on the server without blanks)
* `Cloud.Config.C129_nothing_else_partial` [p, q] – C129: and nothing else on the server is changed; what isn't there on this side is ignored
* `Cloud.Config.C129_works_partial` [p, q] – C129: copying works if nothing fails on the way, what is named and there is a file and not a directory, and its place is named without blanks and isn't a directory
* `Cloud.Config.C129_deploy_partial` [p, q] – C129: in a deployment, a file the user named is copied to the computer of the manager and from there to every server made for a command, whatever else is to be there: what was on the user's computer is on the server at the place asked for. (Places without blanks, absolute or in the home directory; nothing named later goes to the same place.)
* `Cloud.Config.C129_add_partial` [p, q] – C129: whenever a command can go to a server - one made for it, or one made before for others - each file the user named when adding it from another computer is there at its place with the contents it had on the user's computer when the job was added, however it was changed since. (The upload worked; what is named has at most one colon; places have no blanks; nothing of the same job that comes later goes to the same place; the upload directory is left alone.)
* `Cloud.Config.C129_not_on_managers` [p, q, c] – C129: a server made for what the manager was started with alone - among them the manager's own computer, to which nothing is copied (cloud.go:832-866) - is never used for a job that asks for files of its own
* `Cloud.Config.C129_violated_blank` [p, q, c] – C129: a path with a blank: the file is there and nothing fails, but the server can't be used, and so no command that needs it ever runs
* `Cloud.Config.C129_violated_directory` [p, q, c] – C129: with a directory among what is named no server can be used either
* `Cloud.Config.C129_violated_tilde` [p, q, c] – C129: a file in the home directory whose name begins with a tilde is not copied; another is, to another place
* `Cloud.Config.C129_violated_others_file` [p, q, c] – C129: a path on the user's computer that doesn't exist is not ignored if there is such a file on the computer of the manager: that goes to the servers, in a deployment and with `wr add`
* `Cloud.Config.C129_violated_stale` [p, q, c] – C129: on the manager's computer nothing is uploaded: a file that was changed before a job is added is on the server as it was before, if there is a server made for an earlier job that asked for the same path
* `Cloud.Config.C129_violated_upload` [p, q, c] – C129: if the upload fails, that is only a warning: the job is added, and runs on a server without the file
* `Cloud.Config.C129_violated_time` [p, q, c] – C129: the time of a file isn't kept when it is uploaded
* `Cloud.Config.C129_violated_colons` [p, q, c] – C129: with two colons, copying is from and to a path with colons, but uploading is of the first part, and to there

### C130 Killing a job ends everything its command started, and nothing else (partial)

Modules: `Client/KillDocker`, `Client/KillProps`.
Proved for all trees and interleavings: only processes of the job are signalled, what is found dies, and all descendants die if none forks or ends while they are looked for. Violated: forks during the kill, ends of intermediate processes during the search, orphans, a start that can't be told to the server, a kill before the container was seen, and with ? containers of others. Errors of the operating system and reuse of process numbers are not modelled.

* `Client.Kill.C130_only_own` [p, q, c] – **C130**: whatever processes do meanwhile, a kill sends signals to nothing but processes of the job.
* `Client.Kill.C130_found_dead` [p, q, c] – **C130**: when a kill is over, the command and all processes that were found are dead, and stay so.
* `Client.Kill.C130_killed_partial` [p, q, c] – **C130**, as far as it is so: if no process of the job makes another or ends while they are looked for - other processes may do what they like, and all may afterwards - then when the kill is over the command and every process that descended from it when the kill began is dead.
* `Client.Kill.C130_none_left_partial` [p, q, c] – **C130**, as far as it is so: if moreover no process of the job makes another during the kill, and none has become an orphan before it, then no process of the job is left when it is over.
* `Client.Kill.C130_goes_on` [p] – **C130**: a kill never stands still: until it is over one of its steps can be done.
* `Client.Kill.C130_ends` [p, q, c] – **C130**: and once it sends signals it is over after two steps for each process found: nothing else makes it longer, and each of its own steps makes it shorter.
* `Client.Kill.C130_container_own_partial` [p, q] – **C130**, as far as it is so: if no other container has the name (or with "?": nobody else makes a container while the job runs), and the file is only written with the number of the job's container, then a kill ends no container but the job's.
* `Client.Kill.C130_container_ended_partial` [p, q] – **C130**, as far as it is so: if a container that is the only one in question runs at a check of which docker answers, then a later kill that docker answers ends it, and it never runs again - whatever happens to containers, the file and checks in between and after.
* `Client.Kill.C130_usage` [p, q] – **C130**: the peak memory and the processor time that are reported are not less than what any check saw, of the process and - if the process could be looked at - of its container.
* `Client.Kill.C130_usage_seen` [p, q] – **C130**: and they are numbers that some check saw: a check leaves the peak, or makes it the memory it saw of the process or of the container, and so for the processor time.
* `Client.Kill.C130_violated_fork` [p] – **C130** is not so: a process of the job that makes another while the kill is going on.
* `Client.Kill.C130_violated_exit` [p] – **C130** is not so: a process that ends while the others are looked for: its children are not found.
* `Client.Kill.C130_violated_orphan` [p] – **C130** is not so: a process whose parent ended before (as that of a command put in the background by a shell that ended).
* `Client.Kill.C130_violated_started` [no axioms] – **C130** is not so: if the server can't be told of the start, only the shell is killed; what it started goes on, and the job will be run again.
* `Client.Kill.C130_violated_early` [p, q] – **C130** is not so: a kill before the first check leaves the container.
* `Client.Kill.C130_violated_other` [p, q] – **C130** is not so: with "?", the container of another job that starts one at the same time is ended, and its own goes on.
* `Client.Kill.C130_violated_same_name` [p, q] – **C130** is not so: with a name, a container that was there before the job, of that name, is taken for the job's.
* `Client.Kill.C130_violated_memory` [p, q] – and the memory of the container doesn't count at a check that can't look at the process

### C131 wr add warns about commands that would not find their files (partial)

Modules: `Cmd/RelativePattern`, `Cmd/RelativeProps`.
One warning at most, the use of what was read of directories and the meaning of patterns are proved outright; that a reference is noticed, for the ways to name an entry listed in the specification; that there is no false alarm, for absolute paths of more than one element. Violated otherwise (the documentation says it can be wrong): /etc with an entry etc, paths below an entry, the command itself, redirections without a space. shlex.Split is not modelled.

* `Cmd.Relative.C131_pattern` [p, q] – **C131**: a pattern matches a name exactly if its parts stand for the characters of the name one after another.
* `Cmd.Relative.C131_pattern_plain` [p, q] – **C131**: a pattern without special characters matches only itself.
* `Cmd.Relative.C131_pattern_easy` [p, q] – **C131**: in a pattern without brackets and backslashes, a star stands for any characters, a question mark for one, and all others for themselves.
* `Cmd.Relative.C131_pattern_star` [p, q] – names that begin with some characters and end with others
* `Cmd.Relative.C131_pattern_class` [p, q] – **C131**: a class in brackets stands for one of its characters, and one that begins with a caret for one of all others.
* `Cmd.Relative.C131_pattern_range` [p, q] – **C131**: a range in brackets stands for one of the characters from the first to the last.
* `Cmd.Relative.C131_pattern_items` [p, q] – **C131**: a class in brackets, of characters and ranges, each with or without a backslash, stands for one of the characters any of these has, and one that begins with a caret for one of all others.
* `Cmd.Relative.C131_pattern_any` [p, q] – **C131**: a question mark stands for one character that isn't a slash; a backslash and a character for that character.
* `Cmd.Relative.C131_pattern_escaped` [p, q]
* `Cmd.Relative.C131_pattern_error` [p, q] – **C131**: a class that begins with a minus or the closing bracket, as it is, is an error: nothing matches.
* `Cmd.Relative.C131_unparsable` [p, q] – **C131**: there is no warning about a command that can't be divided into arguments.
* `Cmd.Relative.C131_named_partial` [p, q] – **C131**: a command with an argument that names an entry of its working directory is warned about (but for the first argument, if it is an executable).
* `Cmd.Relative.C131_globbed_partial` [p, q] – **C131**: and so is one with a pattern that matches an entry, with ./ before it or not, and with a slash, or a slash and a star, after it or not.
* `Cmd.Relative.C131_absolute_partial` [p, q, c] – **C131**: a command whose arguments are absolute paths with more than one element, or are not names or patterns of entries, is not warned about.
* `Cmd.Relative.C131_once` [p, q, c] – **C131**: there is one warning if one of the commands is to be warned about, and none otherwise or if the check is disabled; every directory is read once at most; and what is remembered of a directory is used for that directory only.
* `Cmd.Relative.C131_matters` [p, q] – **C131**: nothing is said about commands whose working directory matters.
* `Cmd.Relative.C131_violated_absolute` [p, q, c] – **C131** is not so: an absolute path of one element is taken for a relative one.
* `Cmd.Relative.C131_violated_below` [p, q, c] – **C131** is not so: a path below an entry is not noticed.
* `Cmd.Relative.C131_violated_command` [p, q, c] – **C131** is not so: nor is the command itself, if it is found relative to the directory `wr add` is in.
* `Cmd.Relative.C131_violated_redirect` [p, q, c] – **C131** is not so: nor is a file that output goes to or input comes from if there is no space before its name.

### C132 A runner is started with what it needs, and found again (partial)

Modules: `Server/RunnerCmdProps`, `Server/RunnerTime`.
What the runner is told is proved for names without single quotes and paths a shell takes as they are; that the time is enough, for the local scheduler, OpenStack and Kubernetes outright and for LSF if wr chose the queue; that a runner is found again, for jobs without limit groups; what recovered runners are counted for is proved outright. Violated: limit groups with a single quote, paths with spaces or percent signs, an LSF queue named by the user that is too short (the job is never run), runners made to wait longer than a minute, and runners of jobs with limit groups, which are never found again.

* `Server.RunnerCmd.C132_told_partial` [p, q, c] – **C132**: the command made for a group without a single quote in its name starts the manager's executable as a runner that finds the group, the deployment, the address and domain of the manager, both times and what there is to say about logging as they are.
* `Server.RunnerCmd.C132_doubled` [p] – A text with `%` doubled comes out as the text itself, for every text; with an argument that nothing asks for it does not.
* `Server.RunnerCmd.C132_job_partial` [p, q, c] – **C132**: and so for a job, if none of its limit groups has a single quote in its name.
* `Server.RunnerCmd.C132_time` [p, q] – **C132**: with the local scheduler, OpenStack and Kubernetes a runner that gets a job of its group within a minute runs it: a group is asked for with a time of `t` seconds, a whole number of minutes that is at least that of each of its jobs.
* `Server.RunnerCmd.C132_time_request` [p, q, c] – and so for the time a request is rounded to
* `Server.RunnerCmd.C132_time_bound` [p, q] – the time is not much more than that: the runner stops before it takes a second job that would end later
* `Server.RunnerCmd.C132_time_lsf_partial` [p, q] – **C132**: with LSF too, if the queue is one wr chose, from all or from those of a list; or there is none.
* `Server.RunnerCmd.C132_reserve` [p] – **C132**: the time to wait for a job is what the user gave, if it is a number, or else a second.
* `Server.RunnerCmd.C132_recover_partial` [p, q, c] – **C132**: the runner of a job without limit groups is found again.
* `Server.RunnerCmd.C132_recovered_sum` [p, q] – **C132**: whatever the order in which runners are recovered and end, the memory and cores counted as in use for recovered runners are those of the ones that have not ended, each counted once.
* `Server.RunnerCmd.C132_recovered_free` [p, q] – **C132**: and nothing is in use any more when all have ended.
* `Server.RunnerCmd.C132_recovered_count` [p, q, c] – **C132**: each of a number of jobs that had the same command is counted for a runner of its own, as long as there are any.
* `Server.RunnerCmd.C132_ended` [p, q] – what remains of a runner that ended: it is not watched
* `Server.RunnerCmd.C132_violated_quote` [p, q, c] – **C132** is not so: with a single quote in the name of a limit group the shell has nothing to run, or the runner asks for the jobs of another group: the job is never run.
* `Server.RunnerCmd.C132_violated_path` [p, q, c] – **C132** is not so: nor if the path of the executable has a space or a percent sign in it.
* `Server.RunnerCmd.C132_violated_queue` [p, q, c] – **C132** is not so: a queue the user named is not compared with the time the job needs. If it has a shorter limit every runner gives the job back at once, and the job is never run.
* `Server.RunnerCmd.C132_violated_wait` [p, q, c] – **C132** is not so: a user can have runners wait for more than a minute for a job (`rtimeout`); one that got it so late gives it back.
* `Server.RunnerCmd.C132_violated_recover` [p, q, c] – **C132** is not so: the runner of a job that has limit groups is never found.

### C133 What wr knows of LSF is what LSF says (partial)

Modules: `Sched/LsfGroups`, `Sched/LsfMemory`, `Sched/LsfParseProps`.
Proved for every text of the form that bqueues -l prints: exactly the queues that name the user or all are known, with exactly what is said of them. Partial because of what is violated: user groups and excluded users, excluded hosts, groups of hosts listed before the groups in them, memory limits with fractions (float32) or in PB, memory limits of jobs where the unit is GB or more, LSF without a configured unit, and a crash on a line with too few values.

* `Sched.LsfParse.C133_queues_partial` [p, q, c] – C133: for every description of queues, in the form that `bqueues -l` prints, by any spacing and with any other lines in it, wr starts and knows exactly the queues that list the user or `all`, in order, each with exactly the priority, limits, users, hosts and chunk size that its description says (default limits are not taken for maximum ones); and the highest values it has seen are those of all descriptions. Partial: permission by way of user groups and excluded users is another matter (`C133_violated_group`, `C133_violated_excluded`), memory limits are rounded (`C133_memory_near`), and hosts that are excluded are counted (`C133_violated_hosts`).
* `Sched.LsfParse.C133_count` [p, q, c] – C133: the number of hosts (and of users) is that of the different ones: any list of them without repetition is as long
* `Sched.LsfParse.C133_usable_partial` [p, q, c] – C133: where the USERS line has no groups and excludes nobody, wr knows the queue (`C133_queues_partial`) just if the user may use it
* `Sched.LsfParse.C133_groups_sound` [p, q, c] – C133: a host that wr counts as one of a group of hosts is one
* `Sched.LsfParse.C133_groups_partial` [p, q, c] – C133: if `bmgroup -w` lists groups before those that contain them, wr knows exactly the hosts of each group, those of the groups in it included. Partial: LSF lists them in the order of its configuration (`C133_violated_nested`).
* `Sched.LsfParse.C133_hosts_partial` [p, q, c] – C133: so the hosts of a queue are counted right: the number is that of the hosts that its HOSTS line names, or that are in a group it names
* `Sched.LsfParse.C133_memory_partial` [p, q, c] – C133: a memory limit of a queue that is a whole number (below 2²⁴) of kB, MB, GB or TB is known as exactly as many MB, rounded down
* `Sched.LsfParse.C133_memory_near` [p, q, c] – C133: and one with a fraction, of any size, is known to a relative error of 2⁻²⁴, rounded down; `number / 10 ^ frac.length` is the number of units
* `Sched.LsfParse.C133_half` [p, q, c] – C133: if the unit is GB, of two whole numbers that are as near the even one is the limit
* `Sched.LsfParse.C133_hosts_unknown` [p] – C133: a group in HOSTS: that `bmgroup -w` did not list counts as one host
* `Sched.LsfParse.C133_flag_partial` [p, q] – C133: if the unit of limits is MB, a job that needs some MB (below 2²⁴) is submitted with exactly that limit; if it is kB, with exactly that many thousands (below 134218 MB)
* `Sched.LsfParse.C133_violated_group` [p, q, c] – C133 is violated: a queue that a group of users may use is unknown to its members
* `Sched.LsfParse.C133_violated_excluded` [p, q, c] – C133 is violated: a queue that the user is excluded from is known, and can be chosen for jobs
* `Sched.LsfParse.C133_violated_hosts` [p, q, c] – C133 is violated: a queue with all hosts but one is known to have two hosts
* `Sched.LsfParse.C133_violated_nested` [p, q, c] – C133 is violated: groups listed the other way round are not resolved: a queue with the hosts of `huge` counts 2 hosts, not 3
* `Sched.LsfParse.C133_violated_crash` [p, q, c] – C133 is violated: if there is one value fewer than it takes to get to the MEMLIMIT column, wr does not give an error but crashes
* `Sched.LsfParse.C133_violated_rounding` [p] – C133 is violated: a limit of 0.7 GB is known as 699 MB, so a job that needs 700 MB is not given to that queue
* `Sched.LsfParse.C133_violated_peta` [p] – C133 is violated: a limit of 1 PB is known as 1 MB
* `Sched.LsfParse.C133_violated_giga` [p, q, c] – C133 is violated: if the unit of limits is GB, a job that needs 1400 MB is submitted with a limit of 1 GB, and one that needs 500 MB with a limit of 0
* `Sched.LsfParse.C133_violated_tera` [p, q, c] – C133 is violated: if it is TB, a job that needs 500 MB is submitted with a limit of 500000 TB
* `Sched.LsfParse.C133_violated_unset` [no axioms] – C133 is violated: if the unit is not configured (LSF's default is then kB), wr does not start

### C134 Calls do not wait for each other for ever (partial)

Modules: `Server/LockProps`.
Proved for any number of calls of the 71 functions and goroutines of safe, in every order: none is stuck, none waits for itself through others. Partial because three are violated with proofs that calls are stuck for ever: telling the status page of a watched job that ended while it is released (job and database), modifying a job's key while its time is over (job and queue), and the local scheduler's schedule that returns with its lock if cleanup came between its two checks. Channels, bbolt, the other schedulers and cloud servers are not in the model.

* `Server.Locks.C134_no_deadlock_partial` [p, q, c] – No call of a function in `safe` is ever stuck. Partial: see the theorems on violations below.
* `Server.Locks.C134_no_circle_partial` [p, q] – No call of a function in `safe` waits for itself, not even through others. Partial: as above.
* `Server.Locks.C134_violated_watched` [p, q, c]
* `Server.Locks.C134_violated_modify` [p, q, c]
* `Server.Locks.C134_violated_cleanup` [p, q, c]

### C135 Kubernetes is asked for what jobs need, and pods that end are noticed (partial)

Modules: `Sched/K8sProps`.
Proved: requests for whole cores, memory and disk, limits, the check of nodes and that what passes it fits, that questions are kept and can be answered while not both goroutines send, scripts of pods started in turn, copied files, and that only what happened is told. The code violates the rest: fractions of cores are dropped, two questions before a node is known block for ever, scripts leak between jobs, quotes are removed, deploying crashes on some orders of files, a pod reported twice crashes the manager, a deleted pod is never noticed, and the scheduler never starts (nil logger).

* `Sched.K8s.C135_requests_partial` [p, q] – C135: what is asked for is what the job needs, if that is whole cores.
* `Sched.K8s.C135_requests_near` [p, q, c] – C135: it is never more, and less than one core less.
* `Sched.K8s.C135_limits` [p, q] – C135: the limits are not less than the job needs, and one with a fifth more memory is not killed.
* `Sched.K8s.C135_violated_cores` [no axioms] – C135 is violated: for a job that needs half a core no CPU is asked for.
* `Sched.K8s.C135_check` [p, q] – C135: a request is said to be possible just if a node is large enough; disks count if any node tells its disk.
* `Sched.K8s.C135_fits` [p, q] – C135: a pod of a job that was said to be possible asks for what one of the nodes has.
* `Sched.K8s.C135_kept` [p, q] – C135: no request is lost or answered twice.
* `Sched.K8s.C135_answered_partial` [p] – C135: when a node is known, and not both goroutines send, all requests can still be answered. Partial: see below.
* `Sched.K8s.C135_known` [p, q] – C135: once a node is known, no goroutine that waits comes to send again.
* `Sched.K8s.C135_violated_checks` [p, q] – C135 is violated: two jobs that are scheduled before any node is known are never answered, nor is any later one.
* `Sched.K8s.C135_scripts_partial` [p, q] – C135: with a config map, and pods started one after the other, each has the job's own script or that of the config map. Partial: see below.
* `Sched.K8s.C135_scripts_default` [p, q] – C135: if no job has its own script, all pods have the script of the config map, or else the default one, in whatever order.
* `Sched.K8s.C135_violated_script` [p, q] – C135 is violated: without a config map, a job without a script is run with the script of the job before.
* `Sched.K8s.C135_violated_scripts` [p, q] – C135 is violated: two pods started at the same time may both have the script of one of the jobs.
* `Sched.K8s.C135_cmd_partial` [p, q] – C135: a command without single quotes is given to the pod as it is. Partial: see below.
* `Sched.K8s.C135_violated_cmd` [p, q, c] – C135 is violated: an argument in single quotes becomes two.
* `Sched.K8s.C135_deploy_partial` [p, q, c] – C135: when the manager is deployed, the config files below the home directory that exist are copied, each to its place, if those not below it are named last.
* `Sched.K8s.C135_violated_deploy` [p, q, c] – C135 is violated: otherwise, always, the program crashes.
* `Sched.K8s.C135_files` [p, q] – C135: just these files are copied to the pods of runners: those that exist, each to the same place; and for pairs, those whose source exists, each to the place that was said.
* `Sched.K8s.C135_violated_pair` [p, q, c] – C135 is violated: the source of a pair is looked for in a directory called `~`, so that a file in the home directory is not copied.
* `Sched.K8s.C135_told` [p, q] – C135: the command is told that its pod succeeded, or failed, only if it did.
* `Sched.K8s.C135_no_panic_partial` [p, q] – C135: if the goroutines that tell are quick, the manager does not crash. Partial: see below.
* `Sched.K8s.C135_ends_partial` [p, q] – C135: and then the command of a pod that has ended, is known, and was reported, is told, without Kubernetes having to do any more.
* `Sched.K8s.C135_violated_panic` [p] – C135 is violated: a pod that is reported twice just when it has ended makes the manager crash.
* `Sched.K8s.C135_violated_deleted` [p, q] – C135 is violated: if a running pod is deleted, or is lost with its node, the command is never told.
* `Sched.K8s.C135_violated_start` [no axioms] – C135 is violated: the scheduler for Kubernetes never starts.

### C136 wr mount mounts where it is told to, and what is written is uploaded when it ends (partial)

Modules: `Cmd/MountProps`.
Proved for runs in which mounts and unmounts succeed and no signal comes before the handler is set up, with no bound on file systems or writes, and mount points in the foreground or when absolute. The code violates the rest: in the background paths are relative to /, a later failure or an early signal leaves file systems mounted with data that is not uploaded, failing uploads and failing mounts in the background end with status 0.

* `Cmd.Mount.C136_kept` [p, q, c] – C136: whatever was written is uploaded, or the file system it was written to was not unmounted; nothing else is uploaded.
* `Cmd.Mount.C136_uploaded_partial` [p, q, c] – C136: if every mount and unmount succeeds, and no signal comes too early, then when the command has ended nothing is mounted, everything that was written is uploaded, and the command exits with 0. Partial: see below.
* `Cmd.Mount.C136_ends` [p] – C136: a command that waits ends after a signal, however many file systems there are.
* `Cmd.Mount.C136_stays` [p, q] – C136: what is mounted stays mounted, and the process goes on, until a signal comes, unless a mount fails or there is nothing to mount.
* `Cmd.Mount.C136_where_partial` [p, q] – C136: in the foreground each file system is mounted where the help says. Partial: see below.
* `Cmd.Mount.C136_absolute` [p, q] – C136: also in the background, if all paths are absolute.
* `Cmd.Mount.C136_retries` [p, q] – C136: never less than one retry, ten if not given, and as many as given.
* `Cmd.Mount.C136_violated_where` [p] – C136 is violated: in the background, which is the default, file systems are mounted below `/` and not below the working directory.
* `Cmd.Mount.C136_violated_left` [p] – C136 is violated: when a later file system cannot be mounted, or a signal comes before all are, the ones already mounted are left, and what was written to them is not uploaded.
* `Cmd.Mount.C136_violated_status` [p] – C136 is violated: also when an unmount fails, so that files are not uploaded, the command exits with 0.
* `Cmd.Mount.C136_violated_background` [p] – C136 is violated: in the background it looks as if all was mounted even if it was not.

### C137 Deploying to a cloud and tearing down keep the history of jobs (partial)

Modules: `Cmd/CloudDeployProps`.
Proved for all sequences in which teardown is not forced, head nodes are not lost, and one deploys to an existing node only to connect to its manager again (or, with a backup in S3, without fatal failures). The code violates the rest: deploying again to a node whose manager was stopped or does not answer in time overwrites its database with the old local one; a failure then deletes the deployment; draining and then forcing a teardown, as recommended with S3, leaves the old local database, which is later backed up over the new one; and a program that happens to have the pid of an old forwarder is killed.

* `Cmd.CloudDeploy.C137_history_partial` [p, q] – C137: the manager that is used next, in the cloud or locally, knows all that was recorded, if teardown is not forced, head nodes are not lost, and one deploys to an existing node only to connect to its manager again (or, with a backup in S3, without failures). Partial: see below.
* `Cmd.CloudDeploy.C137_again` [p] – C137: deploying again when the manager can be reached changes nothing.
* `Cmd.CloudDeploy.C137_safe` [p] – C137: a teardown that is not forced never deletes the node while something it recorded is nowhere else, however it fails.
* `Cmd.CloudDeploy.C137_violated_again` [p] – C137 is violated: deploying again after the manager in the cloud was stopped replaces its database by the old local one.
* `Cmd.CloudDeploy.C137_violated_running` [p] – C137 is violated: also while that manager runs, if it does not answer in time.
* `Cmd.CloudDeploy.C137_violated_teardown` [p] – C137 is violated: and if the config file cannot be written then, the running deployment is deleted with all it did.
* `Cmd.CloudDeploy.C137_violated_drained` [p] – C137 is violated: draining the manager and then forcing a teardown, which is recommended with a backup in S3, leaves the old local database in place; what the next local manager does is then backed up over what was done in the cloud.
* `Cmd.CloudDeploy.C137_kills_partial` [p, q] – C137: only processes that `wr` started are killed, if pids are not used again. Partial: see below.
* `Cmd.CloudDeploy.C137_forwards` [p, q] – C137: after forwarding was started the process in the file runs, and after cleaning up it does not.
* `Cmd.CloudDeploy.C137_violated_kills` [p, q] – C137 is violated: when a forwarder has ended, say because the machine was restarted, another program that has its pid now is taken for it, and is killed.

### C138 What wr k8s deploy makes, wr k8s teardown deletes, and the history is kept (partial)

Modules: `Cmd/K8sDeployProps`.
Proved for all histories in which the calls between something being made and it being recorded work, and --namespace is not given for another namespace than the recorded one. The code violates the full property: the record takes priority over --namespace when deploying; role bindings are left after a deploy was tried twice; a namespace of the user is deleted, also one that is only named to teardown; a teardown that failed half way can never succeed; it crashes if there is no role binding; without a backup in S3 the local database is not copied to the pod and is replaced by that of the pod; and the messages about the local database are wrong if it could not be updated or moved aside. All of these are proved of concrete runs.

* `Cmd.K8sDeploy.C138_clean_partial` [p, q, c] – C138, as far as it holds: whenever `wr` has no record of a deployment, there are no role bindings, config maps, deployments and services of it in the cluster, and all namespaces there are ones that the user made.
* `Cmd.K8sDeploy.C138_recorded` [p, q] – C138: a teardown that says that it deleted all leaves no record, so with the above nothing is left.
* `Cmd.K8sDeploy.C138_mounts_partial` [p, q, c] – C138, as far as it holds: the config maps that a deployment needs, of its own pod and of the pods of runners, are there.
* `Cmd.K8sDeploy.C138_removable_partial` [p, q, c] – C138, as far as it holds: what was deployed can be torn down.
* `Cmd.K8sDeploy.C138_deploys_partial` [p, q, c] – C138, as far as it holds: when nothing is deployed, `wr k8s deploy` deploys, to the namespace asked for.
* `Cmd.K8sDeploy.C138_where_partial` [p, q] – C138, as far as it holds: `--namespace` is where the manager is deployed or connected to, if nothing else is recorded.
* `Cmd.K8sDeploy.C138_again` [p, q] – C138: deploying again, when the manager is healthy, connects to the same one and changes nothing in the cluster.
* `Cmd.K8sDeploy.C138_adds` [p, q] – C138: `wr k8s deploy` deletes nothing.
* `Cmd.K8sDeploy.C138_others` [p, q] – C138: `wr k8s teardown` deletes nothing in other namespaces than the given or recorded one.
* `Cmd.K8sDeploy.C138_stuck` [p, q] – C138: once the recorded namespace is gone, a teardown cannot succeed.
* `Cmd.K8sDeploy.C138_history_partial` [p, q] – C138, as far as it holds: what the manager knows, in the cluster or locally after a teardown, is all that was ever recorded.
* `Cmd.K8sDeploy.C138_told_partial` [p] – C138, as far as it holds: what is said about the local database is so.
* `Cmd.K8sDeploy.C138_violated_where` [p, q] – C138 is violated: with `--namespace 7` the manager is deployed to the namespace that is recorded.
* `Cmd.K8sDeploy.C138_violated_mounts` [p, q] – C138 is violated: a deployment may need config maps that are not there, so that its pod never starts.
* `Cmd.K8sDeploy.C138_violated_left` [p, q] – C138 is violated: role bindings, which make what runs in the namespace an administrator of the cluster, are left after a teardown that says that it deleted all, if a deploy was tried twice. No call has to fail for that.
* `Cmd.K8sDeploy.C138_violated_save` [p, q] – C138 is violated: if the record cannot be written, the deployment works, but can never be torn down.
* `Cmd.K8sDeploy.C138_violated_own` [p, q] – C138 is violated: a namespace that the user made, and what they have in it, is deleted.
* `Cmd.K8sDeploy.C138_violated_given` [p, q] – C138 is violated: also one that was never deployed to, if it is given with `--namespace`; and then it crashes.
* `Cmd.K8sDeploy.C138_violated_forgets` [p, q] – C138 is violated: a teardown of one namespace can make `wr` forget another, which is left.
* `Cmd.K8sDeploy.C138_violated_retry` [p, q] – C138 is violated: a teardown that could not delete the role binding cannot be tried again.
* `Cmd.K8sDeploy.C138_violated_crash` [p, q] – C138 is violated: if the role binding could not be made, the teardown crashes and `wr` still has its record.
* `Cmd.K8sDeploy.C138_violated_history` [no axioms] – C138 is violated: without a backup in S3 the local database is not copied to the pod, and the teardown replaces it with that of the pod: all that was done before is lost.
* `Cmd.K8sDeploy.C138_violated_second` [no axioms] – C138 is violated: also what was done in an earlier deployment.
* `Cmd.K8sDeploy.C138_violated_pod` [no axioms] – C138 is violated: a pod that is lost takes what was done with it.
* `Cmd.K8sDeploy.C138_violated_told` [no axioms] – C138 is violated: with `--force` the local database is said to be updated although it could not be.
* `Cmd.K8sDeploy.C138_violated_aside` [no axioms] – C138 is violated: the local database is said to be updated from S3 on the next start also if it could not be moved aside, and then it is not.

### C139 The process that `wr k8s deploy` leaves behind gives the manager's pod its files, records it and forwards ports to it (partial)

Modules: `Cmd/K8sControlProps`.
The last state of every pod is acted on, whatever the order of events (C139_acted); the rest holds if nothing fails and no connection is lost. Violations: the command gives the controller no logger, so that it dies as it starts; a failed attach makes the copying wait for ever; a failed copy is not tried again; a file that cannot be read is not reported; ports are never forwarded a second time; a torn record stays so

* `Cmd.K8sControl.C139_acted` [p, q] – However the words of the cluster come and whatever fails: once there is nothing to do, the last look at each pod that is there was at the state that the cluster last reported, unless looking at it failed so often that it was given up.
* `Cmd.K8sControl.C139_only` [p, q] – Files are copied only to pods whose init container was seen to run.
* `Cmd.K8sControl.C139_copied_partial` [p, q] – A pod whose init container runs gets the files: once there is nothing to do, the last thing done about it is a copy that returned, with an error or not (unless it was given up).
* `Cmd.K8sControl.C139_retry` [p, q, c] – A pod is given up only when looking at it has failed six times running.
* `Cmd.K8sControl.C139_names` [p, q] – The file does not come to name anything but a pod in which the manager was seen to run; and ports are forwarded to such a pod only, and only if its phase was "Running".
* `Cmd.K8sControl.C139_last` [p, q] – If the file can be read and written, it names the pod in which the manager was last seen to run.
* `Cmd.K8sControl.C139_recorded_partial` [p, q] – If the manager was reported to run in one pod only, the file can be read and written and there is nothing to do, the file names that pod (unless it was given up).
* `Cmd.K8sControl.C139_forwarded_partial` [p, q] – If connections can be made and are not lost, the file can be read, and a pod in which the manager runs is reported as running, then once there is nothing to do the ports are forwarded to a pod in which the manager was seen to run (unless the pod was given up).
* `Cmd.K8sControl.C139_where` [p, q] – Where a file goes: to the path that was given, or to the file's own name in the directory that was given; that name is what follows the last slash of its path.
* `Cmd.K8sControl.C139_files_partial` [p, q] – If every file can be read and attaching goes well, copying succeeds, each file is where it should be (the last of those that go to the same place), and the pod's other files are as they were.
* `Cmd.K8sControl.C139_ports` [p, q] – With any other number of ports nothing is forwarded, or the process dies.
* `Cmd.K8sControl.C139_violated_logger` [p, q] – **Violated**: as `wr k8s deploy` starts it, the controller dies at once: the options have no logger. Nothing is ever looked at, recorded or forwarded, whatever the cluster does.
* `Cmd.K8sControl.C139_violated_hang` [p, q] – **Violated**: if attaching to the init container ends before all has been read, as it does when it fails, the worker waits for ever, and nothing is done any more about this or any other pod.
* `Cmd.K8sControl.C139_violated_again` [p, q] – **Violated**: a copy that failed is not tried again: there is nothing to do, the pod still waits for its files, and until the cluster has something new to say nothing more is done.
* `Cmd.K8sControl.C139_violated_unread` [p, q] – **Violated**: if a file cannot be read, it and those after it are not copied, and the copy is said to have gone well.
* `Cmd.K8sControl.C139_violated_status` [p, q] – **Violated**: a pod that has the status of its init container and none of its containers kills the process.
* `Cmd.K8sControl.C139_violated_replaced` [p, q] – **Violated**: when the connection has been lost, as when the manager's pod is replaced, the next forwarding kills the process.
* `Cmd.K8sControl.C139_violated_unreached` [p, q] – **Violated**: and if it is lost only after the new pod was seen, the ports are forwarded to nothing, with nothing left to do.
* `Cmd.K8sControl.C139_violated_once` [p, q] – **Violated**: in general: once the ports have been forwarded and the connection has been lost, they are never forwarded again.
* `Cmd.K8sControl.C139_violated_named` [p, q] – **Violated**: a pod that is being replaced and is reported again is recorded over its successor, and stays so when it is gone.
* `Cmd.K8sControl.C139_violated_torn` [p, q] – **Violated**: if the writing of the file ends early it can never be read again, and no ports are forwarded after that.

### C140 An item's statistics tell what happened to it (partial)

Modules: `Queue/StatsProps`.
C140_counted says exactly which moves each counter counts, for all histories. It is not what the names promise: Release of an item without delay counts as a timeout (C140_violated_release), and an item added buried counts as reserved by AddMany but not by Add (C140_violated_buried). By the defect of Update an item that does not run can have a release time (C140_violated_stale).

* `Queue.C140_counted` [p, q, c] – **C140** From the moment an item is added, and through every history of calls (whatever was done before), its five counters are the numbers of its moves told to the changed callback: Reserves is how often it entered the run sub-queue (and one if AddMany added it buried), Buries how often it entered the bury sub-queue, Kicks how often it left that to wait again, Timeouts how often its time to run ended (and how often Release made it ready at once), Releases how often Release delayed it or Update made it wait for other items while it ran.
* `Queue.C140_timeouts_partial` [p, q, c] – **C140** As long as Release never finds the item without a delay, Timeouts is how often the item's time to run ended and nothing else, and Releases is how often Release was called for it, and Update made it wait.
* `Queue.C140_age` [p, q, c] – **C140** The age told is the time since the item was added.
* `Queue.C140_times_partial` [p, q, c] – **C140** After every history (that avoids the defect of Update recorded with C01), an item that was added has a release time just when it is running, and a time at which it becomes ready just when it is delayed; so ReleaseAt and ReadyAt tell nothing stale, and the Remaining of a running or delayed item comes from a time that is set.
* `Queue.C140_remaining_partial` [p, q, c] – **C140** An item that is told to enter the run sub-queue then has its whole time to run remaining, and one told to enter the delay sub-queue its whole delay; as time passes Remaining falls by just that much.
* `Queue.C140_touched_partial` [p, q, c] – **C140** Touch gives a running item its whole time to run again.
* `Queue.C140_violated_release` [p, q] – **C140, violated** Release of an item without a delay counts as a timeout, not as a release, although its time to run did not end.
* `Queue.C140_violated_buried` [p, q, c] – **C140, violated** The same item added in the bury sub-queue has been reserved once according to AddMany, and never according to Add, although nobody reserved it.
* `Queue.C140_violated_stale` [p, q] – **C140, violated** By the defect of Update recorded with C01, an item can be ready and still have a release time.

### C141 Slots of limit groups survive restarts (partial)

Modules: `Limiter/RestartProps`.
Holds for histories in which limits are not negative and not given to groups in use without one (C14_violated_new_limit), and in which each restart finds the time windows of the running jobs open and no group above its limit. Increment is all or nothing, so a running job with a closed window (C141_violated_window) or with a group whose limit was lowered (C141_violated_lowered) is not counted at all after a restart, and its groups get more jobs than their limit.

* `Limiter.Restart.C141_admitted_partial` [p, q, c] – C141: after every history, with any number of restarts, a job that runners do not have is handed out exactly if each of its time windows is open and each of its limited groups has fewer jobs with runners than its limit in force; afterwards no limited group of the job has more than its limit.
* `Limiter.Restart.C141_held_partial` [p, q, c] – C141: after every history each job that a runner has is noted to hold one slot of each of its groups, and of no other: that is what its end gives back.
* `Limiter.Restart.C141_kept_partial` [p, q, c] – C141: a restart keeps exactly the jobs that had started, whatever the order of the database.
* `Limiter.Restart.C141_counted` [p, q] – C141: after every restart, whatever the limits and windows were before it, the slots in use of each limited group are as many as the running jobs will give back: no job will give back a slot that is another's.
* `Limiter.Restart.C141_violated_window` [no axioms] – C141 is false if a time window of a running job has closed when the manager is restarted: none of its groups is counted then, so a group with a limit of 1 gets a second job.
* `Limiter.Restart.C141_violated_lowered` [no axioms] – C141 is false if a limit was lowered below the number of running jobs before a restart: without the restart a job is only handed out when there is room; after it, the end of one job lets the next one in though the group is still full.

### C142 wr limit tells the limits that are in place (partial)

Modules: `Limiter/ShownProps`.
What is listed is right, and so is what is printed for a group with a limit. Limits are listed while jobs of the group run or after they were asked for; not after a restart or when the last job of the group ends, though they are in force (C142_violated_restart, C142_violated_idle). For groups without a limit 9223372036854775807 is printed instead of -1 (C142_violated_unknown).

* `Limiter.Shown.C142_right` [p, q] – C142: what is listed is right: in every history without negative limits, a listed limit is the last one set.
* `Limiter.Shown.C142_windows_partial` [p, q, c] – C142: time windows are not listed.
* `Limiter.Shown.C142_used_partial` [p, q, c] – C142: the limit of a group is listed while jobs of the group run.
* `Limiter.Shown.C142_asked_partial` [p, q, c] – C142: once somebody asked for the limit of a group it is listed, until its last job ends or the manager is restarted.
* `Limiter.Shown.C142_shown` [p, q] – C142: `wr limit -g name` prints the limit in force, for every history without negative limits.
* `Limiter.Shown.C142_set_partial` [p, q] – C142: `wr limit -g name:k` prints the limit it sets, for one that is not negative.
* `Limiter.Shown.C142_violated_unknown` [p, q] – C142 is false of groups that have no limit: the documentation says that -1 is printed, for unknown groups and after setting -1; the greatest number there is is printed instead.
* `Limiter.Shown.C142_violated_restart` [no axioms] – C142 is false: after a restart nothing is listed, though the limits are in force.
* `Limiter.Shown.C142_violated_idle` [no axioms] – C142 is false: when the last job of a group ends, its limit is no longer listed, though it is in force.

### C143 A job that waits for a slot of its limit groups gets it when there is room (partial)

Modules: `Limiter/WaitProps`.
Proved of all histories in which limits are numbers and do not change. False if a limit is raised or removed while a call waits (nobody is told; a removed group even forgets who waits), and of time windows (nothing tells that one opens): the call then waits until its time is up.

* `Limiter.Wait.C143_room_partial` [p, q, c] – C143: in every history in which limits do not change: whenever no group of a waiting call is full, the call has a message, and when it gets it the call takes its slots and waits no longer.
* `Limiter.Wait.C143_taken_partial` [p, q, c] – C143: a waiting call never takes slots that are not there: it takes them exactly if it has a message and no group is full, and stays as it is if not.
* `Limiter.Wait.C143_violated_raised` [no axioms] – C143 is false if a limit is raised: a call that waits is not told, and waits until its time is up although there is room.
* `Limiter.Wait.C143_violated_removed` [no axioms] – C143 is false if a limit is removed: the group forgets who waits, and even the end of the other user of the group tells nobody.
* `Limiter.Wait.C143_violated_window` [no axioms] – C143 is false of time windows: a call that waits for a window is not told when it opens.

### C144 A command the scheduler runs on the manager's own host returns, with what it printed (partial)

Modules: `Sched/LocalRunProps`.
The outputs of commands that succeed are right, and RunCmd returns if the command writes no more to its standard error than a pipe holds. False otherwise: all of standard output is read before any of standard error, so both wait for ever (C144_violated_stuck, for every pipe size); and what a failing command printed is dropped (C144_violated_failed).

* `Sched.LocalRun.C144_output` [p] – C144: however the command and the reader take turns, when `RunCmd` returns after a command that succeeded it returns exactly what the command wrote to each output.
* `Sched.LocalRun.C144_error` [p] – C144: and it reports an error exactly if the command failed.
* `Sched.LocalRun.C144_returns_partial` [p, q] – C144: it returns, after at most so many steps, for every command that writes no more to its standard error than a pipe holds. Missing: commands that write more.
* `Sched.LocalRun.C144_violated_stuck` [p, q, c] – C144 is false of commands that write more to their standard error than a pipe holds: for every size of pipe, such a command waits for ever to write, and `RunCmd` waits for the end of its standard output.
* `Sched.LocalRun.C144_violated_failed` [no axioms] – C144 is false of commands that fail: what they printed, such as why they failed, is not returned.

### C145 LSF: the jobs found in a listing, and those killed when the manager ends (partial)

Modules: `Sched/BjobsProps`.
C145_count: the number found is that of the listed jobs of the command or deployment that have not ended. C145_schedule: what is killed and submitted is what C76 says of the listed jobs. C145_error, C145_idle: a listing cut short is an error, and the manager is idle only if a complete listing has none of its jobs. C145_cleanup_partial: at the end exactly the jobs submitted are killed, if nobody else's job has a name with the same beginning; C145_violated_foreign: a user's own job called wrp_... is killed too.

* `Sched.Bjobs.C145_count` [p, q, c] – C145: whatever the widths of the columns, the number of jobs found of a command (or, for the shorter prefix, of the deployment) is the number of those listed that have not ended; the heading is not counted, nor are jobs with other names.
* `Sched.Bjobs.C145_schedule` [p, q, c] – C145: what `Schedule` makes of the listing is what C76 says of the jobs that are listed.
* `Sched.Bjobs.C145_error` [p, q, c] – C145: a listing that could not be read to its end, or that bjobs did not complete, is not taken for the whole.
* `Sched.Bjobs.C145_cleanup_partial` [p, q, c] – C145: when the manager ends, of the jobs in LSF exactly those of its deployment that have not ended are killed: those that were submitted under the names `names`, if no other job has a name that begins as they do. That is what is missing: nothing keeps users from giving their own jobs such names.
* `Sched.Bjobs.C145_idle` [p, q, c] – C145: the manager is taken to be idle only if LSF lists none of its deployment's jobs that have not ended, and said so completely.
* `Sched.Bjobs.C145_short` [p, q, c] – C145: whatever else bjobs prints, lines of at most seven words change neither what is counted nor what is killed
* `Sched.Bjobs.C145_violated_foreign` [p, q, c] – C145 is violated: a job that the user submitted to LSF under a name of their own that begins with "wrp_" is killed when the manager of the production deployment ends, and keeps it busy until then.

### C146 A changed job waits where its new requirements, limits and priority say (partial)

Modules: `Server/RegroupProps`.
Proved for all histories in which nothing comes between the changes of a request: queue and server agree on groups, and after each look at the ready jobs every job that was ready is handed exactly to runners of the group it now belongs to. The code violates the rest: a look between the change of a job and that of its key leaves it in its old group for ever (C146_violated_stuck); before the look runners of the old group get it (C146_violated_before); the priority of a job that was run before is not changed (C146_violated_priority); a job deleted and added again meanwhile gets the group of the old one (C146_violated_again).

* `Server.Regroup.C146_agree_partial` [p, q, c] – C146, part that holds: as long as nothing comes between the changes of a request (`Quiet`), the queue and the server agree on the group of every job, whenever the callback is not just setting one.
* `Server.Regroup.C146_after_partial` [p, q, c] – C146, part that holds: after whatever history in which nothing came between the changes of a request, once the callback has run, each job that was ready when it began and still is in the queue waits in the group that its requirements and limits say now; a runner gets it exactly if it is of this group.
* `Server.Regroup.C146_priority_partial` [p, q, c] – C146, part that holds: a new priority is that of the job in the queue, if it was never handed out with a delay.
* `Server.Regroup.C146_violated_stuck` [p] – C146 fails if the callback looks at a job between the change of the job and that of its key in the queue: the queue has no item with the new key, and the server forgets that its group was not changed there. However often the callback runs after that, the job waits among those of its old group: the runners that are started for the new one (20) never get it.
* `Server.Regroup.C146_violated_before` [p] – C146 fails before the callback has run: after the request that gives a job other limits or requirements is over, a runner of its old group still gets it.
* `Server.Regroup.C146_violated_priority` [p] – C146 fails for the priority of a job that was run before: only its delay is set back.
* `Server.Regroup.C146_violated_again` [p] – C146 fails if a job is deleted and added again, with other requirements, while the callback deals with it: the new job gets the group of the old one.
* `Server.Regroup.C146_kept` [p, q, c] – C146: whatever comes between, a job in the queue stays there until it is complete or deleted
* `Server.Regroup.C146_freed` [p, q] – **C146**: in every history, when a job is put in its place in the queue again because its priority or dependencies were changed, it is handed to runners of the group the server takes it to be in and to no others, if its item has its key and no delay. This frees a job that is stuck (`C146_violated_stuck`).

### C147 Jobs that share a working directory do not disturb each other while their directories are made and removed (partial)

Modules: `Client/DirsProps`.
Proved for every order of system calls of any number of clients: the directory of a running job and all above it are there and nobody else's (C147_safe), when all clients are over nothing is left (C147_clean), and a client that is left alone gets its directory in every reachable state (C147_alone). That every job gets its directory is proved as long as nobody removes one (C147_making_partial). If no two clients of the same hashed directory are between making and removing the hold file at the same time, a client gets it once its hold file is made (C147_hold_partial) and fails only if directories were removed at least four times (C147_tries_partial). The code violates the rest: the hold file is one for all clients of a hashed directory and the first to be done removes it (C147_violated_hold), and os.MkdirAll is tried four times only while others come and go (C147_violated_mkdir).

* `Client.Dirs.C147_clean` [p, q, c] – **C147**: when all clients are over, nothing they made is left below `Cwd`, whatever the order of their system calls was.
* `Client.Dirs.C147_safe` [p, q, c] – **C147**: while a job runs, its own directory and all those above it are there, and no other job has the same one.
* `Client.Dirs.C147_alone` [p, q, c] – **C147**: in every state that can be reached, a client that begins to make its directory, or tries again, gets it if it is left alone.
* `Client.Dirs.C147_hold_partial` [p, q, c] – **C147**, in part: a client that made its hold file gets a directory of its own, whatever the others remove meanwhile, if it is never between making and removing the hold file at the same time as another client of the same directory. Missing: clients that are, see `C147_violated_hold`.
* `Client.Dirs.C147_tries_partial` [p, q, c] – **C147**, in part: a client gets no directory only if directories were removed at least four times before, if no two clients of the same directory are between making and removing the hold file at the same time. Missing: it gets one however often, see `C147_violated_mkdir`.
* `Client.Dirs.C147_making_partial` [p, q, c] – **C147**, in part: any number of clients can make their directories at the same time, the same ones or others; none of them fails as long as none removes any. Missing: clients that remove theirs meanwhile, see `C147_violated_hold` and `C147_violated_mkdir`.
* `Client.Dirs.C147_violated_hold` [p] – The code violates C147: a client whose hold file is there gets no directory, as the hold file is one for all and the first to be done removes it.
* `Client.Dirs.C147_violated_mkdir` [p] – The code violates C147: a client gets no directory though nobody else uses the same one, as `os.MkdirAll` is tried four times only.

## What is modelled, module by module

The line numbers are those cited by the definitions of the module.

* `Bsub/Args`: lsf.go 559-585, 559-658, 565-566, 568-575, 577-582, 587-613, 593-610, 593, 602-609, 629, 633-658, 642-646; scheduler.go 424-433; add.go 786, 846
* `Bsub/Model`: requirements.go 34-58, 47, 60-74, 64-73, 76-92, 79, 94-114; tokeniser.go 29, 30, 31, 34-40, 54-102, 82-92, 104-130, 132-143, 145-159; bsub.go 28-36, 29-31; binary.go 30-42, 44-72, 74-78, 80-103, 105-130, 132-139, 141-160, 148; logic.go 30-37, 39-57, 59-63, 65-88, 90-105, 107-114, 116-122; primary.go 28-33, 35-77, 79-95, 97-131, 121-128; clause.go 28-31, 33-63, 65-73, 75-81, 83, 85-89; call.go 28-31, 33-55, 57-65, 67-77, 68-72
* `Client/Behaviours`: behaviours.go 39-53, 61-102, 104-110, 112-130, 134-177, 135-163, 319-348, 332-345, 351-359, 365-384, 388-395, 398-423, 431-437, 440-445; serverREST.go 396-408
* `Client/Dirs`: utils.go 445-547, 445-450, 457, 459-468, 470-481, 484-499, 486, 508, 513-520, 527-545, 527-528; behaviours.go 262-271, 264; client.go 636-643
* `Client/Execute`: client.go 1218, 1225-1534, 1262-1428, 1279, 1279-1307, 1311-1332, 1312, 1364-1428, 1455-1533, 1455-1513, 1483-1490; server.go 2095-2108
* `Client/Files`: utils.go 442-521, 523-547, 534-545, 549-569, 559-566, 571-605; mount.go 29-62; behaviours.go 198-272, 219-231, 233-245, 247-260; client.go 624-648
* `Client/Kill`: client.go 893-931, 900, 918, 958-981, 965, 1015, 1017-1071, 1022, 1034-1042, 1049-1067, 1052, 1061-1063, 1069, 1128-1175, 1131, 1135-1154, 1144, 1169-1171, 1172, 1183-1208; utils.go 277-303, 278-303, 281-285, 287
* `Client/Library`: client.go 57-545, 95-98, 100-109, 111-123, 125-129, 131-147, 131-137, 139-158, 154-165, 160-181, 183-206, 208-215, 217-223, 225-239, 228-236, 241-243, 247-254, 355-398, 400-431, 408-417, 419-428, 457-464, 468-478, 485-502, 506-509, 543-545; job.go 40-60, 852-872
* `Client/Monitor`: client.go 98, 636-690, 647-690, 649, 651-657, 660, 692-945, 941-1014, 980-1235, 1081-1089, 1082-1088, 1083, 1083-1085, 1086, 1086-1087, 1097-1110, 1114-1122, 1125-1208, 1178-1208, 1209-1211, 1212, 1215-1218, 1216-1219, 1220, 1221, 1222, 1226-1228, 1230, 1262-1428
* `Client/Mount`: job.go 597-789, 597-733, 598-608, 610-611, 612-711, 614-648, 615, 623, 640-645, 664-674, 674-681, 682-687, 717-729, 720-725, 747-775, 757-762, 777-786; client.go 745-763; mount.go 31-63, 67-133
* `Client/Report`: client.go 1436-1533, 1454-1511, 1603-1771, 1611-1618, 1644-1654, 1661-1680, 1696-1697, 1719, 1726-1737, 1752, 1767-1768, 2031-2069; serverCLI.go 191-273, 233-266, 274-424, 274-304, 344-424, 753-770, 797-862; server.go 2077-2145, 2119-2138, 2177-2195, 2201-2264, 2314-2338; job.go 89-103, 280-345, 813-837; queue.go 1030, 1075, 1221-1286
* `Client/Setup`: client.go 58-77, 563-977, 563-612, 569, 614-650, 692-725, 710-719, 727-763, 808-888, 873, 892-930, 941-977; utils.go 456-521, 469-500, 470-500, 484
* `Client/Usage`: utils.go 179-303, 179-234, 225-231, 237-275, 257-272, 278-303, 292-300; client.go 98, 641-648, 766-807, 775-799, 776-790, 983-1012, 983-990, 996-1012, 999-1006, 1017-1070, 1112-1212, 1128-1212, 1169-1173, 1180-1212, 1182-1205, 1182, 1209-1211, 1236-1268, 1445-1446; job.go 597-664, 597-733, 598-609, 634-641, 664-674
* `Cloud/Config`: server.go 223-229, 316-323, 914-970, 916-970, 917-926, 928-966, 929-930, 936-943, 942, 954, 954-965, 1193-1272, 1234-1268; utils.go 181-188, 184; cloud.go 832-866, 1004-1018; add.go 620, 836, 867-896, 869-894, 879-884; mod.go 238-244; openstack.go 247-255, 557-565, 1000-1040; manager.go 541-583, 788-796; serverREST.go 478-482
* `Cloud/ConfigAdd`: cloud.go 832-866
* `Cloud/Deploy`: cloud.go 162, 178-186, 332-375, 436-463, 885-893, 890-895, 905, 912-913, 917-946, 960-967, 962; openstack.go 101, 368-634, 371, 384-416, 420-455, 427-447, 457-488, 461-480, 486-488, 492-496, 496-533, 537-561, 563-587, 589-624, 624-634, 629, 665-695, 811-818, 1176-1200, 1182-1196, 1201-1221, 1223, 1225-1247, 1248-1255, 1258-1266, 1269-1277, 1280-1292, 1294-1300
* `Cloud/Flavor`: server.go 66-72; cloud.go 501-512, 516-525, 532-575, 538-555, 539, 543-553, 557-571, 590-623, 607-620, 609-616
* `Cloud/Known`: cloud.go 332-375, 431-450, 724-738, 755-770, 787-800, 881-896, 900-914; server.go 145; openstack.go 1072-1082, 1089-1100
* `Cloud/RunCmd`: server.go 786-860
* `Cloud/Server`: server.go 66-72, 78-109, 113-156, 329-360, 380-398, 399-452, 402-414, 420, 431-440, 441, 443-446, 447, 466-507, 479-488; utils.go 49
* `Cloud/Ssh`: server.go 62, 547-644, 553-563
* `Cmd/AddFile`: add.go 42, 757-861, 764-778, 782-783, 788-856, 791-823
* `Cmd/Choose`: remove.go 67-106; kill.go 62-127, 92-113; retry.go 57-90; status.go 494-575, 494-509, 511-567; server.go 2077-2145, 2177-2264, 2177-2195, 2201-2264, 2208-2234, 2314-2338, 2340-2382, 2420-2537, 2583-2709, 2615-2674; serverCLI.go 274-304, 274-343, 305-343, 425-444, 425-469, 445-469, 602-623, 624-670, 772-780, 797-862; client.go 154-165; job.go 423-433
* `Cmd/CloudDeploy`: cloud.go 242-452, 320-421, 403-421, 477-639, 492-609, 825-1170, 825-1112, 830-1112, 844-855, 941-1103, 1115-1136, 1138-1159, 1161-1167; db.go 143-362
* `Cmd/K8sDeploy`: kubernetes.go 200-545, 235-252, 253-269, 282-328, 285-296, 307-475, 314-326, 419-470, 431-435, 500-510, 547-748, 587-608, 588-745, 610-677, 627-660, 708-718, 724; db.go 143-362
* `Cmd/Lsf`: lsf.go 42-52, 102-125, 102-109, 127, 132-171, 133-170, 177-184, 253-276, 282-299, 316-350, 361, 370-397, 400-408, 409-413, 416-427, 430-438, 441-443, 448-450, 471-496; client.go 857-881, 1821-1831; server.go 123-125, 740-801, 1880-1882, 1904, 1933, 2177-2195, 2201-2270; db.go 512-518, 600-650, 1140-1183; serverCLI.go 344-390, 445-469; job.go 1402-1406
* `Cmd/LsfList`: lsf.go 231
* `Cmd/Mod`: mod.go 41, 92-383, 95-106, 140-358, 159-168, 169-256, 194-252, 195, 207, 225, 239, 242, 268-285, 300-341, 302-306, 343-351, 386-448; add.go 588-593, 596-601, 867, 975-988; behaviours.go 37-41; serverCLI.go 495-507
* `Cmd/Mount`: mount.go 177-206, 177-211, 191-205, 224-291, 225-290, 247-250, 254-257
* `Cmd/MountParse`: mount.go 67-133, 292-374, 294-307, 324-374, 327-369, 333-341, 342-349, 351-357
* `Cmd/Relative`: relarg.go 34-149, 39-52, 60-81, 62-64, 66-78, 89-112, 90-92, 102-105, 120-131, 133-137, 139-149; add.go 787-788, 790-853, 850, 900-920, 906-910
* `Cmd/Runner`: runner.go 118-123, 120-124, 165-265, 166-171, 179-262
* `Cmd/Status`: status.go 37, 116-470, 136-139, 141, 143-151, 154-174, 156-173, 175-186, 187-300, 189-195, 190-194, 196-253, 197-199, 204-205, 208-213, 215-232, 234-251, 255-267, 270-299, 301-451, 363-451, 363-380; job.go 54-67, 116-330, 903-975
* `Cmd/Sync`: add.go 484-511, 500-510, 953-962; server.go 1866-1940, 2077-2145, 2077-2122, 2095-2118, 2124-2143, 2149-2165, 2340-2382; serverCLI.go 159-190, 243-262, 274-304, 344-424, 797-862; job.go 813-837; client.go 1821-1831
* `Heap/Model`: item.go 44-46, 70, 110; subqueue.go 34, 124, 148, 158, 202, 205, 208, 239-257, 259-286, 270, 288-308, 310-332
* `Limiter/Model`: limiter.go 36, 39-43, 54-63, 67-77, 97-101, 117-128, 125-151, 157-167, 171-178, 184-193, 213-224, 228-240, 244-259; group.go 33-42, 45-49, 202-208, 211-213, 216-218, 246-250, 254-281, 283-288, 293-297, 301-328, 332-342
* `Limiter/Parse`: group.go 51-198, 52-57, 62-74, 65, 76-88, 90-97, 99-111, 113-130, 132-144, 146-158, 160-177, 181-198
* `Limiter/Restart`: job.go 87-340, 812-849; serverCLI.go 893-924; server.go 751-805, 766-790
* `Limiter/Shown`: limiter.go 80-93; serverCLI.go 706-717, 718-719; limit.go 73-91, 93-97; server.go 3060-3083
* `Limiter/Store`: db.go 370-415, 420-431; server.go 710, 1967-1979, 3060-3083; group.go 220-228
* `Limiter/Wait`: limiter.go 117-151, 125-151, 130, 197-204, 213-224; group.go 234, 299-351, 301-328, 347-351
* `Queue/Model`: item.go 34-42, 44-46, 50-72, 94-112, 110, 206-226, 213-218, 231-239, 245-248, 257-261, 265-269, 272-276, 279-286, 290-294, 297-402, 297-303, 306-312, 315-320, 323-329, 332-337, 340-347, 350-361, 364-374, 377-384, 387-393, 396-402, 405-417; subqueue.go 32-39, 37, 117-125, 128-149, 152-159, 197-209, 239-257, 241-242, 243-252, 256; queue.go 92-100, 104-112, 139-144, 161-186, 199-208, 212-238, 324-333, 346-364, 410-418, 433-435, 434, 441-480, 512-519, 523-530, 536-621, 552-603, 563-564, 563-598, 604-618, 624-637, 670-805, 684-750, 687-699, 703-710, 719-749, 752-787, 811-848, 832-841, 851-879, 882-910, 933-977, 945-958, 981-1010, 1014-1054, 1059-1088, 1092-1128, 1131-1206, 1149-1161, 1167-1174, 1180-1196, 1242-1267, 1246-1262, 1305-1357, 1309-1344; bury_queue.go 37-42, 57-75; dependency_queue.go 41-46, 61-79
* `Queue/Notify`: queue.go 187-188, 267-276, 276
* `Queue/Stats`: item.go 74-92, 79-92, 129-156; queue.go 324-333
* `Queue/Timer`: queue.go 161-186, 213-217, 348-365, 423-479, 532-619, 591, 755-763, 773-781, 850-876, 966-973, 1004-1007, 1045-1049, 1221-1379, 1224, 1224-1236, 1225-1232, 1229, 1235, 1239-1266, 1267-1269, 1270-1271, 1278, 1278-1280, 1279, 1281, 1283-1285, 1296, 1325-1330; item.go 257-269, 272-286
* `Queue/Wait`: queue.go 933-977, 942-947, 951-968; subqueue.go 67-125, 67-80, 82-94, 100-114, 117-125, 197-206
* `Rp/Model`: protector.go 33-47, 63-71, 104-140, 154-181, 161-175, 193-205, 215-228, 233-240, 244-254, 259-268, 273-340, 280-283, 305-333, 320-331, 344-362; request.go 33-47, 52-63, 64-65, 66-71, 77-84, 88-96, 99-107
* `Sched/Bjobs`: lsf.go 669-676, 753, 766-793, 794-799, 804-842, 809-842, 819-837, 822-831, 872-882
* `Sched/K8s`: kubernetes.go 64-68, 167-290, 208-223, 313-315, 410-475, 433-439, 443, 444-453, 503, 515-616, 619-639, 627-660, 654-671, 674-695, 781-837; controller.go 58-62, 247-282, 273-278, 298-368, 396-403, 396-408, 419-430, 419-426, 473-490, 519-530, 524-529, 531-588, 546-588
* `Sched/Local`: scheduler.go 86-95, 424; local.go 110-142, 164-171, 173-174, 175-219, 247-294, 291-296, 295-330, 300-305, 434-443, 437-442, 465-475, 469-474, 500-505, 519-535, 541-556, 565-591, 595-731, 628-630, 647-653, 654-694, 661-682, 671-676, 716-724, 740-777, 799-820, 800-804, 812-817, 826-850, 843-848; utils.go 49
* `Sched/LocalRun`: local.go 958-1022, 990-997, 999-1021
* `Sched/Lsf`: lsf.go 143-314, 150-155, 192, 200, 235, 305, 330-339, 342-348, 342-343, 349-355, 358-384, 361-364, 369-383, 386, 454-461, 467-490, 681-714, 692-695, 697-711, 717-725, 727-729, 731-733, 738-802, 745-748, 770-784, 773-778, 774, 796-799, 827-829; utils.go 66-90, 95-119
* `Sched/LsfJobs`: lsf.go 754-765
* `Sched/LsfParse`: lsf.go 110-320, 110-128, 117-118, 133-320, 137-149, 150-155, 167-319, 175-196, 182-194, 202-253, 203-209, 213-229, 256-319, 256-309, 282-303, 311-319, 403-440, 414-438, 420-437, 424-428, 562-565
* `Sched/Openstack`: openstack.go 44, 70-73, 305-330, 398-432, 457-523, 490-508, 711-807, 731-754, 755-763, 764-772, 773-782, 789-805, 792, 796, 812-852, 815-826; cloud.go 86-98
* `Sched/Schedule`: scheduler.go 224-233, 227, 294-308, 294-328, 300-308, 301-306, 310, 312-325, 313-320, 314-317
* `Sched/Spawn`: openstack.go 618-693, 623-693, 627-633, 659-677, 774-864, 776-784, 788-790, 827-857, 827-849, 827, 860, 866-873, 880-889; cloud.go 684-686, 689-695
* `Server/Auth`: server.go 850-857; utils.go 57, 96-99; serverCLI.go 40-46, 40-85; serverREST.go 53, 551-581, 588, 945, 984, 1041, 1075, 1100; serverWebI.go 132
* `Server/BadServers`: server.go 113-156, 362, 399-452, 889-947, 902-904, 903-927, 1219-1227, 1232-1240, 1268-1345, 2276-2309, 2977-3014, 3032-3057; serverCLI.go 689, 689-692; serverREST.go 1011-1014, 1019-1024; serverWebI.go 373-376, 377-382; openstack.go 1202, 1265-1269
* `Server/Convert`: serverREST.go 58-546, 58-103, 107-157, 160-165, 168-173, 176-181, 184-189, 202-211, 222-546, 233-237, 260-269, 276-280, 282-290, 341-345, 365-375, 377-389, 396-410, 440-517, 441-445, 457-468, 468, 477-482, 484-486, 506-511, 519-545
* `Server/Counts`: job.go 75-87; server.go 1637-1654, 1656-1693, 1683-1685, 1785-1836; serverCLI.go 244-256, 274-304, 295-302, 305-343, 344-390, 470-601, 772-781; serverWebI.go 512-535, 516-523
* `Server/Db`: server.go 751-809, 779-802, 1866, 1933, 2201, 2223; serverCLI.go 274-304, 344, 350-373, 358, 379, 391-424, 425-444, 454; db.go 550, 559-569, 669-680, 699-761, 768-788, 1083-1094, 1160-1172
* `Server/Dead`: server.go 780-797, 797, 1777-1836, 1810-1818, 1812-1816, 2006-2073, 2012-2018, 2014, 2020-2023, 2021, 2025-2035, 2025, 2043-2053, 2055-2073, 2057, 2077-2145, 2177-2195, 2314-2338; scheduler.go 396-413; serverCLI.go 191-424, 241-267, 274-304, 305-343, 344-424, 602-623; serverWebI.go 467-510; queue.go 1318-1322; client.go 925
* `Server/Delete`: serverCLI.go 445-469, 450-463; server.go 2201-2264, 2203-2263, 2208-2230, 2233-2251; queue.go 1212-1222
* `Server/EndTime`: db.go 56, 75, 742-760, 744, 747, 751-752, 752, 853-872, 865
* `Server/Gate`: server.go 370-381, 1088-1103, 1127-1130, 1290-1305, 1306-1315, 1624-1637, 1841-1844, 1845, 1846-1850, 1927-1933, 1985-1988, 1989-2002, 1997, 1998-2001, 2316-2318, 2319, 2320, 2330-2332; serverCLI.go 191-210
* `Server/Groups`: job.go 878-884; serverCLI.go 929-935; scheduler.go 101-120, 119; server.go 1946-1965, 1948-1955; utils.go 121-135, 122-132
* `Server/Keys`: job.go 87-340, 852-872, 859-865, 985-1007, 1009-1018; mount.go 29-62, 66-128, 157-192, 164-168, 172-189, 180-188; utils.go 102-105
* `Server/Learn`: db.go 53, 54, 83-84, 720-740, 725, 730, 737, 1115-1124, 1117, 1120, 1123, 1362-1452, 1368-1390, 1394-1452, 1397-1431, 1410-1430, 1427-1429, 1437-1449; server.go 1325-1456, 1348-1360, 1364-1456, 1366-1374, 1376-1416, 1376-1389, 1418-1453, 1420-1436, 1437-1443; job.go 813-837; serverCLI.go 391-407
* `Server/Life`: job.go 55-66, 87-340, 813-837, 842-849; server.go 1785-1836, 1809-1819, 1866-1940, 1985-2004, 2077-2145, 2116-2136, 2177-2195, 2201-2264, 2314-2336; serverCLI.go 191-271, 274-304, 305-343, 344-390, 391-407, 408-424, 425-444, 445-469, 753-770
* `Server/Listing`: server.go 2601-2609, 2601-2789, 2615-2626, 2629-2643, 2667-2674, 2684-2694, 2697-2707, 2711-2718, 2730-2748, 2742, 2751-2766, 2769-2776, 2774-2789; job.go 54-67, 87-340
* `Server/LockCode`: server.go 261-268, 889-946, 902-928, 949-966, 1035-1040, 1051-1084, 1063-1084, 1088-1103, 1109-1131, 1135-1161, 1277-1290, 1290-1619, 1547-1553, 1566-1571, 1593-1613, 1623-1762, 1731-1733, 1764-1777, 1786-1836, 1806-1823, 1840-1861, 1866-1940, 1967-1979, 1985-2004, 2077-2145, 2149-2165, 2177-2195, 2201-2264, 2276-2311, 2314-2337, 2340-2382, 2386-2399, 2420-2438, 2535-2587, 2826-2836, 2838-2840, 2842-2907, 2889-2903, 2911-2939, 2943-2951, 2969-3028, 3060-3083, 3095-3102, 3100, 3136-3282; scheduler.go 294-328, 301-325, 359-377; serverCLI.go 40-749, 67-745, 144-188, 189-272, 273-304, 305-344, 345-392, 393-423, 424-443, 444-468, 469-607, 608-628, 753-770, 797-862, 812-856, 866-882, 893-924; local.go 129-140, 248-289, 248-345, 286-339, 348-376, 393-410, 415-497, 446-490, 519-536, 541-736, 658-699, 740-777, 787-861, 879-917, 921-931, 935-945, 1039-1053, 1056-1060; subqueue.go 67-332, 82-95, 259-286; bury_queue.go 37-87; dependency_queue.go 41-91; item.go 115-416; queue.go 265-275, 276-308, 324-332, 338-342, 346-364, 368-380, 410-419, 536-621, 624-637, 641-649, 653-661, 670-805, 811-848, 851-879, 882-910, 933-977, 981-1010, 1014-1054, 1059-1088, 1092-1128, 1131-1206, 1212-1222, 1224-1275, 1277-1286, 1288-1367; limiter.go 54-63, 117-152; db.go 453-548, 689-765, 768-787, 1049-1135, 1077-1134, 1140-1183, 1160-1183, 1195-1320, 1324-1360, 1572-1617, 1625-1690, 1638-1689, 1694-1747, 1753-1765; job.go 804-808, 813-837, 842-849, 888-892, 896-900, 903-987, 1257-1423, 1300-1311, 1305-1307; serverWebI.go 221-418, 252-299, 300-353, 354-395, 430-465, 469-508; serverREST.go 954-959, 990-1035
* `Server/Locks`: subqueue.go 272-283
* `Server/Modes`: server.go 85-87, 340-360, 1051-1084, 1055, 1088-1103, 1096, 1109-1131, 1119, 3136-3158; serverCLI.go 50-54, 62, 88-126, 191-196
* `Server/Modify`: job.go 87-340, 852-872, 1032-1423, 1038-1082, 1257-1423, 1263-1294, 1315-1417, 1338-1354, 1382-1398, 1384-1393; serverCLI.go 470-601; server.go 1876, 2322, 2386-2399
* `Server/Push`: serverWebI.go 297-352; server.go 1694-1775, 1694-1702, 1706-1775, 2119-2139
* `Server/PushState`: server.go 1735, 1785-1800, 1866-1940, 2077-2145, 2121-2127, 2314-2338; job.go 54-67, 88-96, 923-926; serverCLI.go 231-262, 274-304, 305-343, 344-390, 391-424, 772-780, 806-857; queue.go 1241-1263
* `Server/Rac`: server.go 263-270, 299-325, 1318-1576, 1318-1552, 1485-1518, 1497-1506, 1528-1552, 1554-1569, 1554-1575, 2842-2939, 2842-2907, 2850-2882, 2886-2904, 2911-2939
* `Server/RacTimer`: server.go 1051-1103, 1109-1131, 1289-1300, 1289-1296, 1295-1300, 1302-1576, 1317-1575, 1577-1617, 1577-1618, 1582, 1585, 1586, 1593-1614, 1597-1602, 1604, 1610; queue.go 265-274, 265-312, 289-309, 289, 299-306, 472, 605, 794, 1043, 1125, 1202, 1265, 1357
* `Server/Recover`: server.go 735-790, 751-809, 754-783, 762-783, 1840-1862; db.go 53, 585-640, 647-650, 653-664, 796-814, 984-1002; dependency.go 29-117, 36-59, 76-82, 99-117; job.go 87-340
* `Server/Regroup`: server.go 1318-1472, 1325, 1335-1456, 1458-1463, 1463-1464, 1464, 1872-1924; serverCLI.go 228-262, 493-586, 546-553, 575-583; job.go 87-340, 878-884, 1258-1419, 1291-1307; utils.go 623-641; queue.go 275-281, 758-790, 811-848, 882-910
* `Server/Rest`: serverREST.go 584-930, 643-728, 664-685, 691-717, 846-886, 888-930, 917-927; serverWebI.go 340-375, 343-345, 346-349, 350-357, 469-510; server.go 188-230, 2149-2195, 2149-2164, 2177-2195, 2340-2383, 2340-2600, 2419-2438, 2441-2460, 2462-2477, 2480-2503, 2535-2569; serverCLI.go 772-862, 772-780, 797-862; job.go 89-96, 98-340; db.go 838-849; client.go 154-165
* `Server/RunnerCmd`: manager.go 817-823, 819-823; server.go 792-793, 793, 2838-2840, 2839; scheduler.go 359-377, 367-377; runner.go 279-287; root.go 108; local.go 55-57, 230-240, 230-245, 243-245, 412-498, 421, 421-496, 466-484, 813; lsf.go 442-461, 443-453; job.go 878-884
* `Server/Sgroup`: server.go 262-332, 263-270, 299-325, 2909-2939
* `Server/Std`: client.go 1646-1656; job.go 266-269, 813-837; db.go 700-712, 768-786, 1057-1104, 1085-1104, 1097-1102, 1195-1320, 1324-1360; server.go 91, 1817, 1866, 2077-2145, 2187-2191, 2201-2264, 2314-2338, 2340-2375, 2808-2822, 2854-2876; serverCLI.go 191-273, 243-252, 344-390, 391-424, 400, 470-601, 866-882, 884-886
* `Server/Stop`: server.go 72-75, 811-839, 1296-1301, 3136-3158; serverCLI.go 52-66, 62, 319-325
* `Server/Store`: db.go 53, 453-548, 453-650, 517, 550-643, 558-575, 579-582, 583-588, 584-588, 590-592, 610, 647-650, 665-678, 667-678, 689-765, 689-790, 768-786, 884-982, 884-906, 908-985, 913-917, 924-983, 926-970, 928-968, 954-958, 992-1008, 992-1012, 1195-1320, 1219-1240, 1537-1546, 1558-1567; job.go 87-340, 1257-1423; dependency.go 62-70; server.go 188-230, 199-206, 210-216, 735-790, 1840-1850, 1904-1938, 1985-2004, 2201-2264, 2420-2440, 2463-2476, 2488-2490; serverCLI.go 344-390, 470-601, 495-507, 541-560
* `Server/Upload`: server.go 1175-1272, 1194-1226, 1204, 1228, 1229-1232, 1233, 1238, 1241, 1252-1268, 1254-1255, 1256-1269; serverCLI.go 138-158; serverREST.go 1037-1068; client.go 1968-1978; utils.go 181-188, 445-450
* `Server/Warnings`: server.go 255-260, 949-967, 950-965, 966; serverREST.go 938-975; serverWebI.go 289-294, 291-293, 384-393
* `Utils/Config`: config.go 40-46, 93-132, 139-150, 196-216, 219-251, 241-251, 243-245, 253-271, 273-284, 299-305, 330-354, 356-373, 380-392, 438-475, 451-467, 478-486, 492-512, 521-535, 632-644; openstack.go 1190-1192
* `Utils/JobEnv`: job.go 395-401, 405-419, 447-487, 451-453, 491-507, 506-516; runner.go 147-156, 178-267, 216-247, 229-237; client.go 813, 827-888, 827-843, 845-854, 877-886
* `Utils/Model`: db.go 1487-1524, 1490-1501, 1504, 1510-1515, 1511, 1518; utils.go 62, 309-315, 317-334, 325-333, 336-343, 345-361, 374-417, 380, 382-408, 422-426, 429-435, 437-439, 622-642; job.go 524-531; scheduler.go 86-96; client.go 95, 96; serverCLI.go 785

## What is not modelled

* The network, codecs, encryption, TLS certificates, web sockets and their JSON, logging, metrics.
* The operating system: processes, signals, `/proc`, the file system (but for the paths and trees that a module above says it
  models), FUSE mounts, S3.
* bolt's own crash atomicity, its files and the online backup of them: a transaction is one atomic step.
* OpenStack and Kubernetes themselves; the Kubernetes scheduler and deployment (`jobqueue/scheduler/kubernetes.go`,
  `kubernetes/`, `cmd/kubernetes.go`); ssh and the copying of files to servers.
* The HTML front end; most of `cmd/` (command-line parsing, printing).
* Floating point: memory and time are integers, cores are exact numbers.
* Hash functions (farm, md5): their input is modelled, and a property that needs them to be injective says so.

## Trusted base

* Lean 4.33.0's kernel.
* The reading of the Go source: nothing ties the model to the code but the citations.
* Go semantics: sections under a mutex are atomic, slices, maps and integer conversion as in the Go specification,
  `container/heap`, `strings`, `sort` as in the standard library.
* What third-party packages do, where a definition says so (bolt, `vimagination.zapto.org/parser`, `shellwords`, gophercloud).
* No axioms were added, there is no `sorry`, `native_decide` or `bv_decide`.


### Axioms

`#print axioms` over the 1158 theorems named in MANIFEST.json:

* 562 theorems: `Classical.choice`, `Quot.sound`, `propext`
* 375 theorems: `Quot.sound`, `propext`
* 165 theorems: `propext`
* 56 theorems: none
