{
 "claims": [
  {
   "property": "C01",
   "status": "partial",
   "theorems": [
    "Verif.Queue.C01_partial",
    "Verif.Queue.C01_no_panic_partial",
    "Verif.Queue.C01_noUpdate_partial",
    "Verif.Queue.C01_violated",
    "Verif.Queue.C01_violated_panic"
   ],
   "note": "Holds for every history that does not give an empty dependency list to a non-dependent item with outstanding dependencies (all histories without Update in particular); the full statement is false of the code: C01_violated, C01_violated_panic."
  },
  {
   "property": "C02",
   "status": "partial",
   "theorems": [
    "Verif.Queue.C02_partial",
    "Verif.Queue.C02_noUpdate_partial",
    "Verif.Queue.C02_violated",
    "Verif.Queue.C02_violated_panic"
   ],
   "note": "Holds unless an Update re-sorts with the reserve-group cursor left at another group; then it is false: C02_violated."
  },
  {
   "property": "C03",
   "status": "proved",
   "theorems": [
    "Verif.Queue.C03"
   ],
   "note": ""
  },
  {
   "property": "C04",
   "status": "proved",
   "theorems": [
    "Verif.Queue.C04"
   ],
   "note": ""
  },
  {
   "property": "C05",
   "status": "partial",
   "theorems": [
    "Verif.Queue.C05_partial",
    "Verif.Queue.C05_violated",
    "Verif.Queue.C05_violated_kick"
   ],
   "note": "Holds if no item is renamed to a key somebody waits for; false otherwise (C05_violated), and Kick can strand an item (C05_violated_kick)."
  },
  {
   "property": "C06",
   "status": "proved",
   "theorems": [
    "Verif.Queue.C06_add_existing",
    "Verif.Queue.C06_addMany",
    "Verif.Queue.C06_addMany_twice"
   ],
   "note": ""
  },
  {
   "property": "C07",
   "status": "partial",
   "theorems": [
    "Verif.Queue.C07_partial",
    "Verif.Queue.C07_failures"
   ],
   "note": "The failing half holds in every state (C07_failures); the succeeding half for histories free of the Update defects (they can panic: C01_violated_panic, C02_violated_panic)."
  },
  {
   "property": "C08",
   "status": "proved",
   "theorems": [
    "Verif.Queue.C08"
   ],
   "note": ""
  },
  {
   "property": "C09",
   "status": "proved",
   "theorems": [
    "Verif.Queue.C09",
    "Verif.Queue.C09_renewed",
    "Verif.Queue.C09_lease"
   ],
   "note": ""
  },
  {
   "property": "C10",
   "status": "partial",
   "theorems": [
    "Verif.Queue.C10_partial",
    "Verif.Queue.C10_dependants_partial",
    "Verif.Queue.C10_listed_partial",
    "Verif.Queue.C10_violated",
    "Verif.Queue.C10_violated_repeated"
   ],
   "note": "Everything holds except that renaming to a key somebody waits for makes the queue forget those dependants (C10_violated), and a dependency that was given twice keeps the old key once (C10_violated_repeated)."
  },
  {
   "property": "C100",
   "status": "partial",
   "theorems": [
    "Verif.Queue.Wait.C100_promised",
    "Verif.Queue.Wait.C100_none_left",
    "Verif.Queue.Wait.C100_one",
    "Verif.Queue.Wait.C100_takes",
    "Verif.Queue.Wait.C100_gets_partial",
    "Verif.Queue.Wait.C100_violated_early"
   ],
   "note": "a call that was told of an item that another call then takes first does not wait again but returns nothing before its time is over (C100_violated_early)."
  },
  {
   "property": "C101",
   "status": "partial",
   "theorems": [
    "Verif.Server.Std.C101_last_partial",
    "Verif.Server.Std.C101_one_run",
    "Verif.Server.Std.C101_only_failed",
    "Verif.Server.Std.C101_listed",
    "Verif.Server.Std.C101_violated_order",
    "Verif.Server.Std.C101_violated_deleted",
    "Verif.Server.Std.C101_violated_modified",
    "Verif.Server.Std.C101_violated_waits"
   ],
   "note": "Holds if the writes of one job are executed in the order in which its runs ended and the job was not deleted or modified before. Each is written by a goroutine of its own, so the order is not guaranteed (C101_violated_order); deleting a job or changing its key leaves its output behind for the next job with the key (C101_violated_deleted, C101_violated_modified); asking waits for the writes of all jobs, possibly for ever (C101_violated_waits)."
  },
  {
   "property": "C102",
   "status": "proved",
   "theorems": [
    "Verif.Server.EndTime.C102_latest",
    "Verif.Server.EndTime.C102_none",
    "Verif.Server.EndTime.C102_grows"
   ],
   "note": "For end times whose seconds fit in 64 bits."
  },
  {
   "property": "C103",
   "status": "partial",
   "theorems": [
    "Verif.Server.BadServers.C103_known",
    "Verif.Server.BadServers.C103_listed",
    "Verif.Server.BadServers.C103_auto",
    "Verif.Server.BadServers.C103_auto_only",
    "Verif.Server.BadServers.C103_destroyed",
    "Verif.Server.BadServers.C103_permanent",
    "Verif.Server.BadServers.C103_killed_partial",
    "Verif.Server.BadServers.C103_confirmed",
    "Verif.Server.BadServers.C103_timer",
    "Verif.Server.BadServers.C103_violated_good",
    "Verif.Server.BadServers.C103_violated_leak",
    "Verif.Server.BadServers.C103_violated_jobs"
   ],
   "note": "The jobs on a server that was found to be good again between copying the list and confirming are killed (C103_violated_good); a server that the provider could not destroy counts as destroyed and runs for ever (C103_violated_leak); the REST API and the status page do not kill the jobs on the server they destroy (C103_violated_jobs)."
  },
  {
   "property": "C104",
   "status": "partial",
   "theorems": [
    "Verif.Client.Mount.C104_all",
    "Verif.Client.Mount.C104_dirs",
    "Verif.Client.Mount.C104_none_partial",
    "Verif.Client.Mount.C104_unmount",
    "Verif.Client.Mount.C104_after",
    "Verif.Client.Mount.C104_violated_retry",
    "Verif.Client.Mount.C104_violated_cachedir",
    "Verif.Client.Mount.C104_violated_signal",
    "Verif.Client.Mount.C104_violated_again"
   ],
   "note": "Holds if no unmount fails and no signal comes. After a failed unmount a second Unmount reports success although the file system is still mounted (C104_violated_retry); a relative cache directory is not put in the CacheBase of its configuration (C104_violated_cachedir); SIGINT or SIGTERM makes any process that ever mounted something panic (C104_violated_signal); the second try after a failure of fusermount mounts somewhere else (C104_violated_again)."
  },
  {
   "property": "C105",
   "status": "partial",
   "theorems": [
    "Verif.Client.Monitor.C105_reasons",
    "Verif.Client.Monitor.C105_peak",
    "Verif.Client.Monitor.C105_needless",
    "Verif.Client.Monitor.C105_kill",
    "Verif.Client.Monitor.C105_killed",
    "Verif.Client.Monitor.C105_watched_partial",
    "Verif.Client.Monitor.C105_ends",
    "Verif.Client.Monitor.C105_violated_early",
    "Verif.Client.Monitor.C105_violated_memory"
   ],
   "note": "A kill request that is learned before the command was started is forgotten, and leaves the command unwatched (C105_violated_early); after a kill for memory Execute can wait for ever for a process that holds the output open (C105_violated_memory). killCmd is taken to reach the command at once."
  },
  {
   "property": "C106",
   "status": "partial",
   "theorems": [
    "Verif.Client.Setup.C106_started",
    "Verif.Client.Setup.C106_told_partial",
    "Verif.Client.Setup.C106_untold",
    "Verif.Client.Setup.C106_on",
    "Verif.Client.Setup.C106_unmounted_partial",
    "Verif.Client.Setup.C106_dir",
    "Verif.Client.Setup.C106_violated_mounted",
    "Verif.Client.Setup.C106_violated_silent",
    "Verif.Client.Setup.C106_violated_tmp",
    "Verif.Client.Setup.C106_violated_spin"
   ],
   "note": "With docker or JSON failing the file systems stay mounted (C106_violated_mounted); a failure to make the command line or pipes is not told (C106_violated_silent); failures before the environment is there leave the temporary directory (C106_violated_tmp); a working directory that cannot be written to makes Execute try for ever (C106_violated_spin)."
  },
  {
   "property": "C107",
   "status": "partial",
   "theorems": [
    "Verif.Cmd.MountParse.C107_read",
    "Verif.Cmd.MountParse.C107_refused_partial",
    "Verif.Cmd.MountParse.C107_one",
    "Verif.Cmd.MountParse.C107_violated_at",
    "Verif.Cmd.MountParse.C107_violated_empty"
   ],
   "note": "Text after a second @ is dropped silently (C107_violated_at), and an empty bucket is accepted (C107_violated_empty)."
  },
  {
   "property": "C108",
   "status": "partial",
   "theorems": [
    "Verif.Client.Report.C108_run",
    "Verif.Client.Report.C108_state",
    "Verif.Client.Report.C108_release_partial",
    "Verif.Client.Report.C108_once",
    "Verif.Client.Report.C108_ends",
    "Verif.Client.Report.C108_again_partial",
    "Verif.Client.Report.C108_heard",
    "Verif.Client.Report.C108_violated_release",
    "Verif.Client.Report.C108_violated_archive",
    "Verif.Client.Report.C108_violated_zero",
    "Verif.Client.Report.C108_violated_started",
    "Verif.Client.Report.C108_violated_left",
    "Verif.Client.Report.C108_violated_refused",
    "Verif.Client.Report.C108_violated_dead",
    "Verif.Client.Report.C108_violated_over"
   ],
   "note": "Proved: at most once, exactly once when the server says so, agreement on the run, and on state and tries left where the two sides count alike. The code violates the rest: after a lost answer to the Release of a job with one or two tries left the server answers every later attempt with an internal error and the client goes on for 24 hours; the copy differs after Started, Bury, Archive and a Release after exit code 0; and an end told after the job was confirmed dead is dropped without an error."
  },
  {
   "property": "C109",
   "status": "partial",
   "theorems": [
    "Verif.Client.Library.C109_matches",
    "Verif.Client.Library.C109_there",
    "Verif.Client.Library.C109_arrays",
    "Verif.Client.Library.C109_found",
    "Verif.Client.Library.C109_incomplete",
    "Verif.Client.Library.C109_last",
    "Verif.Client.Library.C109_held_partial",
    "Verif.Client.Library.C109_violated_held",
    "Verif.Client.Library.C109_disconnect_partial",
    "Verif.Client.Library.C109_violated_disconnect",
    "Verif.Client.Library.C109_newjob_partial",
    "Verif.Client.Library.C109_kept_partial",
    "Verif.Client.Library.C109_violated_shared",
    "Verif.Client.Library.C109_violated_retries"
   ],
   "note": "Proved outright for the pretend server's content and searches. The code violates the rest: RemoveJobs changes lists returned earlier, Disconnect panics for the documented value Y of PretendSubmissions, NewJob writes its queue into requirements shared with jobs of other schedulers, and gives 30 retries where 3 are documented."
  },
  {
   "property": "C11",
   "status": "partial",
   "theorems": [
    "Verif.Queue.C11_partial",
    "Verif.Queue.C11_violated"
   ],
   "note": "Only the first differing of delay / (priority, size or group) / ttr is applied: C11_violated; C11_partial says what is stored."
  },
  {
   "property": "C110",
   "status": "partial",
   "theorems": [
    "Verif.Client.Usage.C110_disk",
    "Verif.Client.Usage.C110_error",
    "Verif.Client.Usage.C110_counted_partial",
    "Verif.Client.Usage.C110_memory",
    "Verif.Client.Usage.C110_memory_partial",
    "Verif.Client.Usage.C110_killed",
    "Verif.Client.Usage.C110_killed_partial",
    "Verif.Client.Usage.C110_peak_memory",
    "Verif.Client.Usage.C110_ranout",
    "Verif.Client.Usage.C110_memkill",
    "Verif.Client.Usage.C110_memkill_partial",
    "Verif.Client.Usage.C110_unknown",
    "Verif.Client.Usage.C110_amount",
    "Verif.Client.Usage.C110_places",
    "Verif.Client.Usage.C110_join",
    "Verif.Client.Usage.C110_peak_disk",
    "Verif.Client.Usage.C110_violated_small",
    "Verif.Client.Usage.C110_violated_twice",
    "Verif.Client.Usage.C110_violated_cwdmatters",
    "Verif.Client.Usage.C110_violated_hidden",
    "Verif.Client.Usage.C110_violated_kill",
    "Verif.Client.Usage.C110_violated_ranout",
    "Verif.Client.Usage.C110_violated_docker",
    "Verif.Client.Usage.C110_violated_ninety",
    "Verif.Client.Usage.C110_violated_unreadable"
   ],
   "note": "What a measurement counts, when it fails, and the peaks are proved outright. The code violates the rest: any number of files under 1 MB count as nothing; a cache directory named by two targets counts twice; nothing written by a cwd_matters job is measured; one unreadable directory makes every measurement fail; a process that can't be looked into hides those below it (also from being killed); memory used between two readings is in the reported peak but not taken as having run out of memory; docker's figure is dropped when the process's own can't be read; and the 90% are of the machine's memory rounded down to 100 MB."
  },
  {
   "property": "C111",
   "status": "partial",
   "theorems": [
    "Verif.Cmd.Sync.C111_zero_partial",
    "Verif.Cmd.Sync.C111_poll_partial",
    "Verif.Cmd.Sync.C111_there",
    "Verif.Cmd.Sync.C111_tries",
    "Verif.Cmd.Sync.C111_violated_upload",
    "Verif.Cmd.Sync.C111_violated_early",
    "Verif.Cmd.Sync.C111_violated_quick",
    "Verif.Cmd.Sync.C111_violated_complete",
    "Verif.Cmd.Sync.C111_violated_deleted",
    "Verif.Cmd.Sync.C111_violated_buried"
   ],
   "note": "Exit status 0 only after completion, the exit status of buried jobs and the presence of the job are proved for every history without a run reported as failed with exit code 0. Violations: a job whose files can't be uploaded on its last try is buried with exit code 0, so the status is 0; a look between the move of the item and the change of the job gives 255 for any exit code; a job completed before its id is looked up, or complete already, gives 1; a deleted job makes the command panic; a job buried already gives the exit code of an earlier run."
  },
  {
   "property": "C112",
   "status": "partial",
   "theorems": [
    "Verif.Server.Upload.C112_content_partial",
    "Verif.Server.Upload.C112_same",
    "Verif.Server.Upload.C112_whole",
    "Verif.Server.Upload.C112_untouched",
    "Verif.Server.Upload.C112_path",
    "Verif.Server.Upload.C112_path_partial",
    "Verif.Server.Upload.C112_violated_tail",
    "Verif.Server.Upload.C112_violated_mixed",
    "Verif.Server.Upload.C112_violated_failed",
    "Verif.Server.Upload.C112_violated_inside",
    "Verif.Server.Upload.C112_violated_left",
    "Verif.Server.Upload.C112_home_partial",
    "Verif.Server.Upload.C112_otherwise",
    "Verif.Server.Upload.C112_violated_home",
    "Verif.Server.Upload.C112_names"
   ],
   "note": "Uploads without a path are proved right for every interleaving and crash point as long as no upload names a path in the upload directory. The code violates the rest for uploads with a path: the file is not truncated, so that the end of an older, longer file stays; simultaneous uploads to one path mix; a failed one leaves a mixture. Temporary files of failed uploads stay for ever, and ~/~x is taken as ~/x."
  },
  {
   "property": "C113",
   "status": "partial",
   "theorems": [
    "Verif.Cmd.Choose.C113_retry",
    "Verif.Cmd.Choose.C113_retry_later",
    "Verif.Cmd.Choose.C113_kill_partial",
    "Verif.Cmd.Choose.C113_kill_later",
    "Verif.Cmd.Choose.C113_later_rest",
    "Verif.Cmd.Choose.C113_told_partial",
    "Verif.Cmd.Choose.C113_dead",
    "Verif.Cmd.Choose.C113_remove",
    "Verif.Cmd.Choose.C113_remove_partial",
    "Verif.Cmd.Choose.C113_acts",
    "Verif.Cmd.Choose.C113_one_way",
    "Verif.Cmd.Choose.C113_kill_count_partial",
    "Verif.Cmd.Choose.C113_violated_buried",
    "Verif.Cmd.Choose.C113_violated_race",
    "Verif.Cmd.Choose.C113_violated_dead",
    "Verif.Cmd.Choose.C113_violated_alive",
    "Verif.Cmd.Choose.C113_violated_reserved",
    "Verif.Cmd.Choose.C113_violated_count",
    "Verif.Cmd.Choose.C113_violated_eligible"
   ],
   "note": "Retrying is proved in full. Killing and removing only buried jobs are proved for jobs chosen by group; with -f, -l and -y the state is not looked at: remove --buried removes jobs that are not buried, kill releases lost jobs, and kill --confirmdead kills live ones, all proved. A job killed between its reservation and its start is counted but never told."
  },
  {
   "property": "C114",
   "status": "partial",
   "theorems": [
    "Verif.Server.Dead.C114_checked",
    "Verif.Server.Dead.C114_one_partial",
    "Verif.Server.Dead.C114_one_recovered_partial",
    "Verif.Server.Dead.C114_found_partial",
    "Verif.Server.Dead.C114_heard",
    "Verif.Server.Dead.C114_tries",
    "Verif.Server.Dead.C114_violated_unstarted",
    "Verif.Server.Dead.C114_violated_killed",
    "Verif.Server.Dead.C114_violated_late",
    "Verif.Server.Dead.C114_violated_overtaken",
    "Verif.Server.Dead.C114_violated_finished",
    "Verif.Server.Dead.C114_violated_stale",
    "Verif.Server.Dead.C114_violated_recovered",
    "Verif.Server.Dead.C114_violated_view",
    "Verif.Server.Dead.C114_violated_behaviours",
    "Verif.Server.C114_marked"
   ],
   "note": "Proved under conditions each of which is shown to be needed. A runner cut off before it reports its start, a job killed by the user while cut off, a kill that comes after the job runs again: the command can run twice at a time or be stopped for no reason. A command that ended well while its runner was cut off is run again. Jobs recovered at start, and lost jobs whose group was used for a kill on the web page, are never found dead. A job killed once and retried is told to stop until it reports its start."
  },
  {
   "property": "C115",
   "status": "partial",
   "theorems": [
    "Verif.Cloud.Deploy.C115_others",
    "Verif.Cloud.Deploy.C115_servers_partial",
    "Verif.Cloud.Deploy.C115_violated_servers",
    "Verif.Cloud.Deploy.C115_self_partial",
    "Verif.Cloud.Deploy.C115_host",
    "Verif.Cloud.Deploy.C115_long",
    "Verif.Cloud.Deploy.C115_violated_self",
    "Verif.Cloud.Deploy.C115_once",
    "Verif.Cloud.Deploy.C115_complete_partial",
    "Verif.Cloud.Deploy.C115_violated_key",
    "Verif.Cloud.Deploy.C115_violated_rules",
    "Verif.Cloud.Deploy.C115_violated_iface",
    "Verif.Cloud.Deploy.C115_teardown_partial",
    "Verif.Cloud.Deploy.C115_violated_left",
    "Verif.Cloud.Deploy.C115_servers_gone_partial",
    "Verif.Cloud.Deploy.C115_violated_server_left",
    "Verif.Cloud.Deploy.C115_file",
    "Verif.Cloud.Deploy.C115_reports",
    "Verif.Cloud.Deploy.C115_nothing",
    "Verif.Cloud.Deploy.C115_host_run",
    "Verif.Cloud.Deploy.C115_violated_torn",
    "Verif.Cloud.Deploy.C115_incloud"
   ],
   "note": "Proved for resources other than servers, and for histories in which the last Deploy() begun had worked. Violated: servers of others whose resource name begins with ours are destroyed; a server whose name is not a host name destroys itself; a Deploy() after an interrupted one reports success without private key, without rules or without an interface; after a failed Deploy() tearing down finds nothing to do and leaves the resources; servers that cannot be destroyed are left although success is reported; a kill while the file is written blocks the name for ever."
  },
  {
   "property": "C116",
   "status": "partial",
   "theorems": [
    "Verif.Cloud.Known.C116_servers_partial",
    "Verif.Cloud.Known.C116_forgotten",
    "Verif.Cloud.Known.C116_head_partial",
    "Verif.Cloud.Known.C116_first_partial",
    "Verif.Cloud.Known.C116_hostname",
    "Verif.Cloud.Known.C116_hostname_sharp",
    "Verif.Cloud.Known.C116_violated_killed",
    "Verif.Cloud.Known.C116_violated_tear",
    "Verif.Cloud.Known.C116_violated_restart",
    "Verif.Cloud.Known.C116_violated_two",
    "Verif.Cloud.Known.C116_violated_no_head"
   ],
   "note": "Host names are proved outright. Servers() and HeadNode() are proved for histories in which no process is killed between a change and the next save, none goes on after TearDown(), all deploy before they spawn and nobody else deletes servers; each condition is shown to be needed. Violated: a server that is restarting when it is checked is forgotten for ever; there can be two head nodes, or none."
  },
  {
   "property": "C117",
   "status": "partial",
   "theorems": [
    "Verif.Server.Push.C117_told_partial",
    "Verif.Server.Push.C117_change_told",
    "Verif.Server.Push.C117_shown_partial",
    "Verif.Server.Push.C117_violated_order",
    "Verif.Server.Push.C117_violated_between",
    "Verif.Server.Push.C117_violated_release",
    "Verif.Server.Push.C117_only_asked",
    "Verif.Server.Push.C117_closed",
    "Verif.Server.Push.C117_unsubscribed",
    "Verif.Server.Push.C117_subscribes",
    "Verif.Server.Push.C117_others",
    "Verif.Server.Push.C117_other_jobs",
    "Verif.Server.PushState.C117_state_partial",
    "Verif.Server.PushState.C117_violated_ready",
    "Verif.Server.PushState.C117_violated_reserved",
    "Verif.Server.PushState.C117_violated_kick",
    "Verif.Server.PushState.C117_violated_255"
   ],
   "note": "The code violates it: two pushes may be written in the other order, a change between reading the details and the subscription is not told of, details set after the callback looked are not, and the state in pushed details is a field that is not kept up to date for ready, dependent and reserved jobs. Proved for all histories: a subscribed page that missed no change has been written the present details, and shows them if writes are done in order and it asked once; the state is right for delayed, buried, complete and started jobs; nothing that was not asked for, nothing after closing or unsubscribing."
  },
  {
   "property": "C118",
   "status": "partial",
   "theorems": [
    "Verif.Server.Warnings.C118_outstanding",
    "Verif.Server.Warnings.C118_answer",
    "Verif.Server.Warnings.C118_conserved",
    "Verif.Server.Warnings.C118_read_partial",
    "Verif.Server.Warnings.C118_violated_unsent",
    "Verif.Server.Warnings.C118_page_partial",
    "Verif.Server.Warnings.C118_violated_join",
    "Verif.Server.Warnings.C118_violated_unseen",
    "Verif.Server.Warnings.C118_not_told",
    "Verif.Server.Warnings.C118_dismiss"
   ],
   "note": "The code violates the last parts: warnings are forgotten before the answer is sent, a page that asks before its listening goroutine runs is not told, and dismissing all dismisses those not seen."
  },
  {
   "property": "C119",
   "status": "partial",
   "theorems": [
    "Verif.Cloud.Ssh.C119_limit_partial",
    "Verif.Cloud.Ssh.C119_reuse",
    "Verif.Cloud.Ssh.C119_given_back",
    "Verif.Cloud.Ssh.C119_violated_transfer",
    "Verif.Cloud.Ssh.C119_violated_failed",
    "Verif.Cloud.Ssh.C119_violated_dies",
    "Verif.Cloud.Ssh.C119_violated_limit",
    "Verif.Cloud.RunCmd.C119_one_answer",
    "Verif.Cloud.RunCmd.C119_not_cancelled",
    "Verif.Cloud.RunCmd.C119_no_panic",
    "Verif.Cloud.RunCmd.C119_destroy_free",
    "Verif.Cloud.RunCmd.C119_bounded",
    "Verif.Cloud.RunCmd.C119_not_stuck"
   ],
   "note": "Running a command is proved outright. The limit of sessions is proved if connections are only forgotten when nobody uses a session. The code violates the rest: file transfers never give their session back, a connection on which making a session failed once is not used again, and WaitUntilReady forgets connections in use, after which closing a session kills the program or lets a connection carry 11."
  },
  {
   "property": "C12",
   "status": "proved",
   "theorems": [
    "Verif.Queue.C12_noticed",
    "Verif.Queue.Notify.C12_single",
    "Verif.Queue.Notify.C12_told",
    "Verif.Queue.Notify.C12_ends"
   ],
   "note": ""
  },
  {
   "property": "C120",
   "status": "partial",
   "theorems": [
    "Verif.Server.Stop.C120_once",
    "Verif.Server.Stop.C120_effect",
    "Verif.Server.Stop.C120_down",
    "Verif.Server.Stop.C120_order",
    "Verif.Server.Stop.C120_told",
    "Verif.Server.Stop.C120_told_only",
    "Verif.Server.Stop.C120_goes_on",
    "Verif.Server.Stop.C120_ends",
    "Verif.Server.Stop.C120_signal",
    "Verif.Server.Stop.C120_drain",
    "Verif.Server.Stop.C120_block_partial",
    "Verif.Server.Stop.C120_block_one",
    "Verif.Server.Stop.C120_runners_partial",
    "Verif.Server.Stop.C120_violated_second",
    "Verif.Server.Stop.C120_violated_runners",
    "Verif.Server.Stop.C120_violated_drain",
    "Verif.Server.Stop.C120_violated_signal",
    "Verif.Server.Stop.C120_violated_untold",
    "Verif.Server.Stop.C120_violated_block"
   ],
   "note": "That exactly one call stops the server, the order of its steps, what is closed after it and that it ends are proved outright. That there are no runners afterwards is proved if no callback that had begun before asks for runners. The code violates the rest: a second Stop(true) returns at once, a callback that had begun makes runners start afterwards, Stop during a drain kills the process when the queue is gone, a second signal ends the process with the database open, a runner that touches too late is never told, and only one Block is ever told."
  },
  {
   "property": "C121",
   "status": "partial",
   "theorems": [
    "Verif.Cmd.Status.C121_counts",
    "Verif.Cmd.Status.C121_counts_total",
    "Verif.Cmd.Status.C121_unlimited",
    "Verif.Cmd.Status.C121_plain",
    "Verif.Cmd.Status.C121_host",
    "Verif.Cmd.Status.C121_summary_lines_partial",
    "Verif.Cmd.Status.C121_summary_numbers_partial",
    "Verif.Cmd.Status.C121_summary_total_partial",
    "Verif.Cmd.Status.C121_summary_usage_partial",
    "Verif.Cmd.Status.C121_summary_buried_partial",
    "Verif.Cmd.Status.C121_group_text",
    "Verif.Cmd.Status.C121_details",
    "Verif.Cmd.Status.C121_details_job",
    "Verif.Cmd.Status.C121_details_stats",
    "Verif.Cmd.Status.C121_json",
    "Verif.Cmd.Status.C121_violated_reserved",
    "Verif.Cmd.Status.C121_violated_name"
   ],
   "note": "Partial because the code violates two cases of the summary: reserved jobs, which the counts format calls running, are in no number of it (the code works out the state in which reserved is running and then counts under the other one), and jobs of a report group that is named 'all above' are left out or counted twice. The mean and standard deviation of the values are those of package runningvariance, which is not modelled."
  },
  {
   "property": "C122",
   "status": "partial",
   "theorems": [
    "Verif.Cmd.Mod.C122_changed_partial",
    "Verif.Cmd.Mod.C122_other_partial",
    "Verif.Cmd.Mod.C122_other_values",
    "Verif.Cmd.Mod.C122_behaviours",
    "Verif.Cmd.Mod.C122_cmd_deps",
    "Verif.Cmd.Mod.C122_refused",
    "Verif.Cmd.Mod.C122_asked",
    "Verif.Cmd.Mod.C122_override",
    "Verif.Cmd.Mod.C122_violated_off",
    "Verif.Cmd.Mod.C122_violated_other",
    "Verif.Cmd.Mod.C122_violated_range",
    "Verif.Cmd.Mod.C122_violated_time",
    "Verif.Cmd.Mod.C122_violated_modules"
   ],
   "note": "Partial because the code violates cases: an empty value does not turn off limit groups and dependencies on groups but sets an empty name, dependencies on commands and the queue cannot be turned off, any option about the cloud or queues takes away all others of the job, priority and retries are taken modulo 256, a time of 0 is ignored, and there is no option for modules. The parsing of sizes, times and JSON is a parameter."
  },
  {
   "property": "C123",
   "status": "partial",
   "theorems": [
    "Verif.Cmd.Manager.C123_log_partial",
    "Verif.Cmd.Manager.C123_log_last",
    "Verif.Cmd.Manager.C123_violated_log",
    "Verif.Cmd.Manager.C123_stop_files",
    "Verif.Cmd.Manager.C123_stop_gone_partial",
    "Verif.Cmd.Manager.C123_stop_only",
    "Verif.Cmd.Manager.C123_stop_nothing",
    "Verif.Cmd.Manager.C123_stop_works",
    "Verif.Cmd.Manager.C123_stop_elsewhere",
    "Verif.Cmd.Manager.C123_violated_stale",
    "Verif.Cmd.Manager.C123_violated_two",
    "Verif.Cmd.Manager.C123_drain",
    "Verif.Cmd.Manager.C123_violated_drain_again",
    "Verif.Cmd.Manager.C123_status_partial",
    "Verif.Cmd.Manager.C123_violated_status",
    "Verif.Cmd.Manager.C123_start",
    "Verif.Cmd.Manager.C123_start_options",
    "Verif.Cmd.Manager.C123_start_token",
    "Verif.Cmd.Manager.C123_start_stop"
   ],
   "note": "Partial because the code violates the full property: with a stale pid file stop terminates an unrelated process, says the manager was shut down and deletes the token (C123_violated_stale); without a pid file only one of two managers is stopped (C123_violated_two); after a drain with nothing running a repeated drain is refused (C123_violated_drain_again); the message about a non-responsive manager is unreachable (C123_violated_status); a log line of 64 KiB hides later errors (C123_violated_log)."
  },
  {
   "property": "C124",
   "status": "partial",
   "theorems": [
    "Verif.Server.Race.C124_count",
    "Verif.Server.Race.C124_one_client_partial",
    "Verif.Server.Race.C124_limit_partial",
    "Verif.Server.Race.C124_accepted_partial",
    "Verif.Server.Race.C124_no_leak_partial",
    "Verif.Server.Race.C124_slots_partial",
    "Verif.Server.Race.C124_archived_gone",
    "Verif.Server.Race.C124_not_started_kept",
    "Verif.Server.Race.C124_violated_two_clients",
    "Verif.Server.Race.C124_violated_leak",
    "Verif.Server.Race.C124_violated_archive"
   ],
   "note": "Counts never exceed limits in any history. One client per job, the limit on what clients work on, and no wrong refusals hold in every interleaving if clients ask for the end of a job once; a repeated release can take the job from the next client and hand it out twice (C124_violated_two_clients). Slots are all given back if no job is handed out while the end of its last run is still being noted; otherwise a slot leaks (C124_violated_leak) and a good run cannot be archived (C124_violated_archive)."
  },
  {
   "property": "C125",
   "status": "partial",
   "theorems": [
    "Verif.Server.Start.C125_new_token",
    "Verif.Server.Start.C125_keep",
    "Verif.Server.Start.C125_token",
    "Verif.Server.Start.C125_failed_token",
    "Verif.Server.Start.C125_stuck",
    "Verif.Server.Start.C125_fresh",
    "Verif.Server.Start.C125_restart_partial",
    "Verif.Server.Start.C125_bad_certs",
    "Verif.Server.Start.C125_own_certs",
    "Verif.Server.Start.C125_connects_only",
    "Verif.Server.Start.C125_violated_crash",
    "Verif.Server.Start.C125_violated_crash_key",
    "Verif.Server.Start.C125_violated_token",
    "Verif.Server.Start.C125_violated_ca",
    "Verif.Server.Start.C125_violated_two"
   ],
   "note": "That existing files are kept, what token is used, and that a fresh start works are proved outright. That later starts work is proved unless a start died (or failed) while it made the certificates: then no start works again (C125_violated_crash, C125_violated_crash_key). A start that dies while it rewrites the token loses it (C125_violated_token); a missing CA is not generated, contrary to the documentation (C125_violated_ca); two starts at a time can mix up certificate and key (C125_violated_two)."
  },
  {
   "property": "C126",
   "status": "partial",
   "theorems": [
    "Verif.Sched.CloudRun.C126_capacity",
    "Verif.Sched.CloudRun.C126_given_back",
    "Verif.Sched.CloudRun.C126_start",
    "Verif.Sched.CloudRun.C126_failed",
    "Verif.Sched.CloudRun.C126_failed_local",
    "Verif.Sched.CloudRun.C126_unreachable",
    "Verif.Sched.CloudRun.C126_told",
    "Verif.Sched.CloudRun.C126_cleanup",
    "Verif.Sched.CloudRun.C126_new_server",
    "Verif.Sched.CloudRun.C126_recovered_kept_partial",
    "Verif.Sched.CloudRun.C126_recovered_watched",
    "Verif.Sched.CloudRun.C126_recovered_idle",
    "Verif.Sched.CloudRun.C126_recovered_once",
    "Verif.Sched.CloudRun.C126_recovered_forever",
    "Verif.Sched.CloudRun.C126_pattern",
    "Verif.Sched.CloudRun.C126_violated_unreachable",
    "Verif.Sched.CloudRun.C126_violated_second"
   ],
   "note": "All of the statement is proved for every history except that a server of an earlier manager is kept while its commands run: that holds only as long as each check reaches the server (C126_recovered_kept_partial). One failure of ssh at a check, or when a second command of the same server is recovered, destroys the server with its commands (C126_violated_unreachable, C126_violated_second)."
  },
  {
   "property": "C127",
   "status": "partial",
   "theorems": [
    "Verif.Server.Waits.C127_handed_out_partial",
    "Verif.Server.Waits.C127_running_partial",
    "Verif.Server.Waits.C127_delete_partial",
    "Verif.Server.Waits.C127_in_queue_partial",
    "Verif.Server.Waits.C127_no_longer_partial",
    "Verif.Server.Waits.C127_freed_partial",
    "Verif.Server.Waits.C127_progress_partial",
    "Verif.Server.Waits.C127_comes_back_partial",
    "Verif.Server.Waits.C127_violated_lost",
    "Verif.Server.Waits.C127_violated_early",
    "Verif.Server.Waits.C127_violated_new_group",
    "Verif.Server.Waits.C127_violated_old_group",
    "Verif.Server.Waits.C127_violated_renamed",
    "Verif.Server.Waits.C127_violated_stale",
    "Verif.Server.Waits.C127_violated_running",
    "Verif.Server.Waits.C127_violated_cycle"
   ],
   "note": "Safety is proved for all calm histories: requests are handled one at a time, a live job is not re-added with other details, a job on whose command others depend is not added or renamed after them (the documentation calls these dependencies static), groups are changed only to ones nobody depends on, and jobs that were complete before are not changed. Exactness and progress are proved for the plain ones of these, where nothing is changed and every added job is new. Outside these the code violates the property, in the ways shown by the eight violations."
  },
  {
   "property": "C128",
   "status": "partial",
   "theorems": [
    "Verif.Cmd.Lsf.C128_script",
    "Verif.Cmd.Lsf.C128_directive",
    "Verif.Cmd.Lsf.C128_directive_blanks",
    "Verif.Cmd.Lsf.C128_columns",
    "Verif.Cmd.Lsf.C128_command_partial",
    "Verif.Cmd.Lsf.C128_nothing",
    "Verif.Cmd.Lsf.C128_inherited",
    "Verif.Cmd.Lsf.C128_numbers_partial",
    "Verif.Cmd.Lsf.C128_number_kept_partial",
    "Verif.Cmd.Lsf.C128_number_given",
    "Verif.Cmd.Lsf.C128_bkill_only",
    "Verif.Cmd.Lsf.C128_bkill_lines",
    "Verif.Cmd.Lsf.C128_bkill_partial",
    "Verif.Cmd.Lsf.C128_bjobs",
    "Verif.Cmd.Lsf.C128_format_delimiter",
    "Verif.Cmd.Lsf.C128_format",
    "Verif.Cmd.Lsf.C128_format_only",
    "Verif.Cmd.Lsf.C128_stat",
    "Verif.Cmd.Lsf.C128_flags",
    "Verif.Cmd.Lsf.C128_flags_all",
    "Verif.Cmd.Lsf.C128_violated_indent",
    "Verif.Cmd.Lsf.C128_violated_empty",
    "Verif.Cmd.Lsf.C128_violated_config",
    "Verif.Cmd.Lsf.C128_violated_restart",
    "Verif.Cmd.Lsf.C128_violated_renumbered",
    "Verif.Cmd.Lsf.C128_violated_modified",
    "Verif.Cmd.Lsf.C128_violated_never_ends",
    "Verif.Cmd.Lsf.C128_violated_runs",
    "Verif.Cmd.Lsf.C128_violated_lost_job",
    "Verif.Cmd.Lsf.C128_violated_dependants",
    "Verif.Cmd.Lsf.C128_violated_finished",
    "Verif.Cmd.Lsf.C128_violated_zero",
    "Verif.Cmd.Lsf.C128_violated_same_number",
    "Verif.Cmd.Lsf.C128_violated_crash",
    "Verif.Cmd.Lsf.C128_violated_format",
    "Verif.Cmd.Lsf.C128_violated_flags"
   ],
   "note": "Scripts, directives, inheritance, listings and formats are settled for all inputs. Numbers are unique and kept only until the manager is restarted. bkill acts on nothing but the numbers given and prints one line for each in every interleaving; that these lines are true, and that it ends, is proved only if the jobs are not lost, reserved or depended on and nobody else changes them; the violations show that the conditions are needed."
  },
  {
   "property": "C129",
   "status": "partial",
   "theorems": [
    "Verif.Cloud.Config.C129_relative",
    "Verif.Cloud.Config.C129_grammar",
    "Verif.Cloud.Config.C129_copied_partial",
    "Verif.Cloud.Config.C129_nothing_else_partial",
    "Verif.Cloud.Config.C129_works_partial",
    "Verif.Cloud.Config.C129_deploy_partial",
    "Verif.Cloud.Config.C129_add_partial",
    "Verif.Cloud.Config.C129_not_on_managers",
    "Verif.Cloud.Config.C129_violated_blank",
    "Verif.Cloud.Config.C129_violated_directory",
    "Verif.Cloud.Config.C129_violated_tilde",
    "Verif.Cloud.Config.C129_violated_others_file",
    "Verif.Cloud.Config.C129_violated_stale",
    "Verif.Cloud.Config.C129_violated_upload",
    "Verif.Cloud.Config.C129_violated_time",
    "Verif.Cloud.Config.C129_violated_colons"
   ],
   "note": "Proved for all specifications, computers and histories under conditions that the violations show to be needed: destinations without blanks, at most one colon, uploads that worked, and for jobs added on the manager's own computer nothing is claimed (stale files). filepath.Clean and shell characters other than blanks are not modelled."
  },
  {
   "property": "C13",
   "status": "proved",
   "theorems": [
    "Verif.Heap.C13",
    "Verif.Heap.C13_sorted"
   ],
   "note": ""
  },
  {
   "property": "C130",
   "status": "partial",
   "theorems": [
    "Verif.Client.Kill.C130_only_own",
    "Verif.Client.Kill.C130_found_dead",
    "Verif.Client.Kill.C130_killed_partial",
    "Verif.Client.Kill.C130_none_left_partial",
    "Verif.Client.Kill.C130_goes_on",
    "Verif.Client.Kill.C130_ends",
    "Verif.Client.Kill.C130_container_own_partial",
    "Verif.Client.Kill.C130_container_ended_partial",
    "Verif.Client.Kill.C130_usage",
    "Verif.Client.Kill.C130_usage_seen",
    "Verif.Client.Kill.C130_violated_fork",
    "Verif.Client.Kill.C130_violated_exit",
    "Verif.Client.Kill.C130_violated_orphan",
    "Verif.Client.Kill.C130_violated_started",
    "Verif.Client.Kill.C130_violated_early",
    "Verif.Client.Kill.C130_violated_other",
    "Verif.Client.Kill.C130_violated_same_name",
    "Verif.Client.Kill.C130_violated_memory"
   ],
   "note": "Proved for all trees and interleavings: only processes of the job are signalled, what is found dies, and all descendants die if none forks or ends while they are looked for. Violated: forks during the kill, ends of intermediate processes during the search, orphans, a start that can't be told to the server, a kill before the container was seen, and with ? containers of others. Errors of the operating system and reuse of process numbers are not modelled."
  },
  {
   "property": "C131",
   "status": "partial",
   "theorems": [
    "Verif.Cmd.Relative.C131_pattern",
    "Verif.Cmd.Relative.C131_pattern_plain",
    "Verif.Cmd.Relative.C131_pattern_easy",
    "Verif.Cmd.Relative.C131_pattern_star",
    "Verif.Cmd.Relative.C131_pattern_class",
    "Verif.Cmd.Relative.C131_pattern_range",
    "Verif.Cmd.Relative.C131_pattern_items",
    "Verif.Cmd.Relative.C131_pattern_any",
    "Verif.Cmd.Relative.C131_pattern_escaped",
    "Verif.Cmd.Relative.C131_pattern_error",
    "Verif.Cmd.Relative.C131_unparsable",
    "Verif.Cmd.Relative.C131_named_partial",
    "Verif.Cmd.Relative.C131_globbed_partial",
    "Verif.Cmd.Relative.C131_absolute_partial",
    "Verif.Cmd.Relative.C131_once",
    "Verif.Cmd.Relative.C131_matters",
    "Verif.Cmd.Relative.C131_violated_absolute",
    "Verif.Cmd.Relative.C131_violated_below",
    "Verif.Cmd.Relative.C131_violated_command",
    "Verif.Cmd.Relative.C131_violated_redirect"
   ],
   "note": "One warning at most, the use of what was read of directories and the meaning of patterns are proved outright; that a reference is noticed, for the ways to name an entry listed in the specification; that there is no false alarm, for absolute paths of more than one element. Violated otherwise (the documentation says it can be wrong): /etc with an entry etc, paths below an entry, the command itself, redirections without a space. shlex.Split is not modelled."
  },
  {
   "property": "C132",
   "status": "partial",
   "theorems": [
    "Verif.Server.RunnerCmd.C132_told_partial",
    "Verif.Server.RunnerCmd.C132_doubled",
    "Verif.Server.RunnerCmd.C132_job_partial",
    "Verif.Server.RunnerCmd.C132_time",
    "Verif.Server.RunnerCmd.C132_time_request",
    "Verif.Server.RunnerCmd.C132_time_bound",
    "Verif.Server.RunnerCmd.C132_time_lsf_partial",
    "Verif.Server.RunnerCmd.C132_reserve",
    "Verif.Server.RunnerCmd.C132_recover_partial",
    "Verif.Server.RunnerCmd.C132_recovered_sum",
    "Verif.Server.RunnerCmd.C132_recovered_free",
    "Verif.Server.RunnerCmd.C132_recovered_count",
    "Verif.Server.RunnerCmd.C132_ended",
    "Verif.Server.RunnerCmd.C132_violated_quote",
    "Verif.Server.RunnerCmd.C132_violated_path",
    "Verif.Server.RunnerCmd.C132_violated_queue",
    "Verif.Server.RunnerCmd.C132_violated_wait",
    "Verif.Server.RunnerCmd.C132_violated_recover"
   ],
   "note": "What the runner is told is proved for names without single quotes and paths a shell takes as they are; that the time is enough, for the local scheduler, OpenStack and Kubernetes outright and for LSF if wr chose the queue; that a runner is found again, for jobs without limit groups; what recovered runners are counted for is proved outright. Violated: limit groups with a single quote, paths with spaces or percent signs, an LSF queue named by the user that is too short (the job is never run), runners made to wait longer than a minute, and runners of jobs with limit groups, which are never found again."
  },
  {
   "property": "C133",
   "status": "partial",
   "theorems": [
    "Verif.Sched.LsfParse.C133_queues_partial",
    "Verif.Sched.LsfParse.C133_count",
    "Verif.Sched.LsfParse.C133_usable_partial",
    "Verif.Sched.LsfParse.C133_groups_sound",
    "Verif.Sched.LsfParse.C133_groups_partial",
    "Verif.Sched.LsfParse.C133_hosts_partial",
    "Verif.Sched.LsfParse.C133_memory_partial",
    "Verif.Sched.LsfParse.C133_memory_near",
    "Verif.Sched.LsfParse.C133_half",
    "Verif.Sched.LsfParse.C133_hosts_unknown",
    "Verif.Sched.LsfParse.C133_flag_partial",
    "Verif.Sched.LsfParse.C133_violated_group",
    "Verif.Sched.LsfParse.C133_violated_excluded",
    "Verif.Sched.LsfParse.C133_violated_hosts",
    "Verif.Sched.LsfParse.C133_violated_nested",
    "Verif.Sched.LsfParse.C133_violated_crash",
    "Verif.Sched.LsfParse.C133_violated_rounding",
    "Verif.Sched.LsfParse.C133_violated_peta",
    "Verif.Sched.LsfParse.C133_violated_giga",
    "Verif.Sched.LsfParse.C133_violated_tera",
    "Verif.Sched.LsfParse.C133_violated_unset"
   ],
   "note": "Proved for every text of the form that bqueues -l prints: exactly the queues that name the user or all are known, with exactly what is said of them. Partial because of what is violated: user groups and excluded users, excluded hosts, groups of hosts listed before the groups in them, memory limits with fractions (float32) or in PB, memory limits of jobs where the unit is GB or more, LSF without a configured unit, and a crash on a line with too few values."
  },
  {
   "property": "C134",
   "status": "partial",
   "theorems": [
    "Verif.Server.Locks.C134_no_deadlock_partial",
    "Verif.Server.Locks.C134_no_circle_partial",
    "Verif.Server.Locks.C134_violated_watched",
    "Verif.Server.Locks.C134_violated_modify",
    "Verif.Server.Locks.C134_violated_cleanup"
   ],
   "note": "Proved for any number of calls of the 71 functions and goroutines of safe, in every order: none is stuck, none waits for itself through others. Partial because three are violated with proofs that calls are stuck for ever: telling the status page of a watched job that ended while it is released (job and database), modifying a job's key while its time is over (job and queue), and the local scheduler's schedule that returns with its lock if cleanup came between its two checks. Channels, bbolt, the other schedulers and cloud servers are not in the model."
  },
  {
   "property": "C135",
   "status": "partial",
   "theorems": [
    "Verif.Sched.K8s.C135_requests_partial",
    "Verif.Sched.K8s.C135_requests_near",
    "Verif.Sched.K8s.C135_limits",
    "Verif.Sched.K8s.C135_violated_cores",
    "Verif.Sched.K8s.C135_check",
    "Verif.Sched.K8s.C135_fits",
    "Verif.Sched.K8s.C135_kept",
    "Verif.Sched.K8s.C135_answered_partial",
    "Verif.Sched.K8s.C135_known",
    "Verif.Sched.K8s.C135_violated_checks",
    "Verif.Sched.K8s.C135_scripts_partial",
    "Verif.Sched.K8s.C135_scripts_default",
    "Verif.Sched.K8s.C135_violated_script",
    "Verif.Sched.K8s.C135_violated_scripts",
    "Verif.Sched.K8s.C135_cmd_partial",
    "Verif.Sched.K8s.C135_violated_cmd",
    "Verif.Sched.K8s.C135_deploy_partial",
    "Verif.Sched.K8s.C135_violated_deploy",
    "Verif.Sched.K8s.C135_files",
    "Verif.Sched.K8s.C135_violated_pair",
    "Verif.Sched.K8s.C135_told",
    "Verif.Sched.K8s.C135_no_panic_partial",
    "Verif.Sched.K8s.C135_ends_partial",
    "Verif.Sched.K8s.C135_violated_panic",
    "Verif.Sched.K8s.C135_violated_deleted",
    "Verif.Sched.K8s.C135_violated_start"
   ],
   "note": "Proved: requests for whole cores, memory and disk, limits, the check of nodes and that what passes it fits, that questions are kept and can be answered while not both goroutines send, scripts of pods started in turn, copied files, and that only what happened is told. The code violates the rest: fractions of cores are dropped, two questions before a node is known block for ever, scripts leak between jobs, quotes are removed, deploying crashes on some orders of files, a pod reported twice crashes the manager, a deleted pod is never noticed, and the scheduler never starts (nil logger)."
  },
  {
   "property": "C136",
   "status": "partial",
   "theorems": [
    "Verif.Cmd.Mount.C136_kept",
    "Verif.Cmd.Mount.C136_uploaded_partial",
    "Verif.Cmd.Mount.C136_ends",
    "Verif.Cmd.Mount.C136_stays",
    "Verif.Cmd.Mount.C136_where_partial",
    "Verif.Cmd.Mount.C136_absolute",
    "Verif.Cmd.Mount.C136_retries",
    "Verif.Cmd.Mount.C136_violated_where",
    "Verif.Cmd.Mount.C136_violated_left",
    "Verif.Cmd.Mount.C136_violated_status",
    "Verif.Cmd.Mount.C136_violated_background"
   ],
   "note": "Proved for runs in which mounts and unmounts succeed and no signal comes before the handler is set up, with no bound on file systems or writes, and mount points in the foreground or when absolute. The code violates the rest: in the background paths are relative to /, a later failure or an early signal leaves file systems mounted with data that is not uploaded, failing uploads and failing mounts in the background end with status 0."
  },
  {
   "property": "C137",
   "status": "partial",
   "theorems": [
    "Verif.Cmd.CloudDeploy.C137_history_partial",
    "Verif.Cmd.CloudDeploy.C137_again",
    "Verif.Cmd.CloudDeploy.C137_safe",
    "Verif.Cmd.CloudDeploy.C137_violated_again",
    "Verif.Cmd.CloudDeploy.C137_violated_running",
    "Verif.Cmd.CloudDeploy.C137_violated_teardown",
    "Verif.Cmd.CloudDeploy.C137_violated_drained",
    "Verif.Cmd.CloudDeploy.C137_kills_partial",
    "Verif.Cmd.CloudDeploy.C137_forwards",
    "Verif.Cmd.CloudDeploy.C137_violated_kills"
   ],
   "note": "Proved for all sequences in which teardown is not forced, head nodes are not lost, and one deploys to an existing node only to connect to its manager again (or, with a backup in S3, without fatal failures). The code violates the rest: deploying again to a node whose manager was stopped or does not answer in time overwrites its database with the old local one; a failure then deletes the deployment; draining and then forcing a teardown, as recommended with S3, leaves the old local database, which is later backed up over the new one; and a program that happens to have the pid of an old forwarder is killed."
  },
  {
   "property": "C138",
   "status": "partial",
   "theorems": [
    "Verif.Cmd.K8sDeploy.C138_clean_partial",
    "Verif.Cmd.K8sDeploy.C138_recorded",
    "Verif.Cmd.K8sDeploy.C138_mounts_partial",
    "Verif.Cmd.K8sDeploy.C138_removable_partial",
    "Verif.Cmd.K8sDeploy.C138_deploys_partial",
    "Verif.Cmd.K8sDeploy.C138_where_partial",
    "Verif.Cmd.K8sDeploy.C138_again",
    "Verif.Cmd.K8sDeploy.C138_adds",
    "Verif.Cmd.K8sDeploy.C138_others",
    "Verif.Cmd.K8sDeploy.C138_stuck",
    "Verif.Cmd.K8sDeploy.C138_history_partial",
    "Verif.Cmd.K8sDeploy.C138_told_partial",
    "Verif.Cmd.K8sDeploy.C138_violated_where",
    "Verif.Cmd.K8sDeploy.C138_violated_mounts",
    "Verif.Cmd.K8sDeploy.C138_violated_left",
    "Verif.Cmd.K8sDeploy.C138_violated_save",
    "Verif.Cmd.K8sDeploy.C138_violated_own",
    "Verif.Cmd.K8sDeploy.C138_violated_given",
    "Verif.Cmd.K8sDeploy.C138_violated_forgets",
    "Verif.Cmd.K8sDeploy.C138_violated_retry",
    "Verif.Cmd.K8sDeploy.C138_violated_crash",
    "Verif.Cmd.K8sDeploy.C138_violated_history",
    "Verif.Cmd.K8sDeploy.C138_violated_second",
    "Verif.Cmd.K8sDeploy.C138_violated_pod",
    "Verif.Cmd.K8sDeploy.C138_violated_told",
    "Verif.Cmd.K8sDeploy.C138_violated_aside"
   ],
   "note": "Proved for all histories in which the calls between something being made and it being recorded work, and --namespace is not given for another namespace than the recorded one. The code violates the full property: the record takes priority over --namespace when deploying; role bindings are left after a deploy was tried twice; a namespace of the user is deleted, also one that is only named to teardown; a teardown that failed half way can never succeed; it crashes if there is no role binding; without a backup in S3 the local database is not copied to the pod and is replaced by that of the pod; and the messages about the local database are wrong if it could not be updated or moved aside. All of these are proved of concrete runs."
  },
  {
   "property": "C139",
   "status": "partial",
   "theorems": [
    "Verif.Cmd.K8sControl.C139_acted",
    "Verif.Cmd.K8sControl.C139_only",
    "Verif.Cmd.K8sControl.C139_copied_partial",
    "Verif.Cmd.K8sControl.C139_retry",
    "Verif.Cmd.K8sControl.C139_names",
    "Verif.Cmd.K8sControl.C139_last",
    "Verif.Cmd.K8sControl.C139_recorded_partial",
    "Verif.Cmd.K8sControl.C139_forwarded_partial",
    "Verif.Cmd.K8sControl.C139_where",
    "Verif.Cmd.K8sControl.C139_files_partial",
    "Verif.Cmd.K8sControl.C139_ports",
    "Verif.Cmd.K8sControl.C139_violated_logger",
    "Verif.Cmd.K8sControl.C139_violated_hang",
    "Verif.Cmd.K8sControl.C139_violated_again",
    "Verif.Cmd.K8sControl.C139_violated_unread",
    "Verif.Cmd.K8sControl.C139_violated_status",
    "Verif.Cmd.K8sControl.C139_violated_replaced",
    "Verif.Cmd.K8sControl.C139_violated_unreached",
    "Verif.Cmd.K8sControl.C139_violated_once",
    "Verif.Cmd.K8sControl.C139_violated_named",
    "Verif.Cmd.K8sControl.C139_violated_torn"
   ],
   "note": "The last state of every pod is acted on, whatever the order of events (C139_acted); the rest holds if nothing fails and no connection is lost. Violations: the command gives the controller no logger, so that it dies as it starts; a failed attach makes the copying wait for ever; a failed copy is not tried again; a file that cannot be read is not reported; ports are never forwarded a second time; a torn record stays so"
  },
  {
   "property": "C14",
   "status": "partial",
   "theorems": [
    "Verif.Limiter.C14_partial",
    "Verif.Limiter.C14_holders_partial",
    "Verif.Limiter.C14_violated_duplicate",
    "Verif.Limiter.C14_violated_new_limit"
   ],
   "note": "Increment is all or nothing and counts stay within limits for lists without duplicate names; false for a list naming a group twice (C14_violated_duplicate), and holders admitted before a group had a limit are not counted (C14_violated_new_limit)."
  },
  {
   "property": "C140",
   "status": "partial",
   "theorems": [
    "Verif.Queue.C140_counted",
    "Verif.Queue.C140_timeouts_partial",
    "Verif.Queue.C140_age",
    "Verif.Queue.C140_times_partial",
    "Verif.Queue.C140_remaining_partial",
    "Verif.Queue.C140_touched_partial",
    "Verif.Queue.C140_violated_release",
    "Verif.Queue.C140_violated_buried",
    "Verif.Queue.C140_violated_stale"
   ],
   "note": "C140_counted says exactly which moves each counter counts, for all histories. It is not what the names promise: Release of an item without delay counts as a timeout (C140_violated_release), and an item added buried counts as reserved by AddMany but not by Add (C140_violated_buried). By the defect of Update an item that does not run can have a release time (C140_violated_stale)."
  },
  {
   "property": "C141",
   "status": "partial",
   "theorems": [
    "Verif.Limiter.Restart.C141_admitted_partial",
    "Verif.Limiter.Restart.C141_held_partial",
    "Verif.Limiter.Restart.C141_kept_partial",
    "Verif.Limiter.Restart.C141_counted",
    "Verif.Limiter.Restart.C141_violated_window",
    "Verif.Limiter.Restart.C141_violated_lowered"
   ],
   "note": "Holds for histories in which limits are not negative and not given to groups in use without one (C14_violated_new_limit), and in which each restart finds the time windows of the running jobs open and no group above its limit. Increment is all or nothing, so a running job with a closed window (C141_violated_window) or with a group whose limit was lowered (C141_violated_lowered) is not counted at all after a restart, and its groups get more jobs than their limit."
  },
  {
   "property": "C142",
   "status": "partial",
   "theorems": [
    "Verif.Limiter.Shown.C142_right",
    "Verif.Limiter.Shown.C142_windows_partial",
    "Verif.Limiter.Shown.C142_used_partial",
    "Verif.Limiter.Shown.C142_asked_partial",
    "Verif.Limiter.Shown.C142_shown",
    "Verif.Limiter.Shown.C142_set_partial",
    "Verif.Limiter.Shown.C142_violated_unknown",
    "Verif.Limiter.Shown.C142_violated_restart",
    "Verif.Limiter.Shown.C142_violated_idle"
   ],
   "note": "What is listed is right, and so is what is printed for a group with a limit. Limits are listed while jobs of the group run or after they were asked for; not after a restart or when the last job of the group ends, though they are in force (C142_violated_restart, C142_violated_idle). For groups without a limit 9223372036854775807 is printed instead of -1 (C142_violated_unknown)."
  },
  {
   "property": "C143",
   "status": "partial",
   "theorems": [
    "Verif.Limiter.Wait.C143_room_partial",
    "Verif.Limiter.Wait.C143_taken_partial",
    "Verif.Limiter.Wait.C143_violated_raised",
    "Verif.Limiter.Wait.C143_violated_removed",
    "Verif.Limiter.Wait.C143_violated_window"
   ],
   "note": "Proved of all histories in which limits are numbers and do not change. False if a limit is raised or removed while a call waits (nobody is told; a removed group even forgets who waits), and of time windows (nothing tells that one opens): the call then waits until its time is up."
  },
  {
   "property": "C144",
   "status": "partial",
   "theorems": [
    "Verif.Sched.LocalRun.C144_output",
    "Verif.Sched.LocalRun.C144_error",
    "Verif.Sched.LocalRun.C144_returns_partial",
    "Verif.Sched.LocalRun.C144_violated_stuck",
    "Verif.Sched.LocalRun.C144_violated_failed"
   ],
   "note": "The outputs of commands that succeed are right, and RunCmd returns if the command writes no more to its standard error than a pipe holds. False otherwise: all of standard output is read before any of standard error, so both wait for ever (C144_violated_stuck, for every pipe size); and what a failing command printed is dropped (C144_violated_failed)."
  },
  {
   "property": "C145",
   "status": "partial",
   "theorems": [
    "Verif.Sched.Bjobs.C145_count",
    "Verif.Sched.Bjobs.C145_schedule",
    "Verif.Sched.Bjobs.C145_error",
    "Verif.Sched.Bjobs.C145_cleanup_partial",
    "Verif.Sched.Bjobs.C145_idle",
    "Verif.Sched.Bjobs.C145_short",
    "Verif.Sched.Bjobs.C145_violated_foreign"
   ],
   "note": "C145_count: the number found is that of the listed jobs of the command or deployment that have not ended. C145_schedule: what is killed and submitted is what C76 says of the listed jobs. C145_error, C145_idle: a listing cut short is an error, and the manager is idle only if a complete listing has none of its jobs. C145_cleanup_partial: at the end exactly the jobs submitted are killed, if nobody else's job has a name with the same beginning; C145_violated_foreign: a user's own job called wrp_... is killed too."
  },
  {
   "property": "C146",
   "status": "partial",
   "theorems": [
    "Verif.Server.Regroup.C146_agree_partial",
    "Verif.Server.Regroup.C146_after_partial",
    "Verif.Server.Regroup.C146_priority_partial",
    "Verif.Server.Regroup.C146_violated_stuck",
    "Verif.Server.Regroup.C146_violated_before",
    "Verif.Server.Regroup.C146_violated_priority",
    "Verif.Server.Regroup.C146_violated_again",
    "Verif.Server.Regroup.C146_kept",
    "Verif.Server.Regroup.C146_freed"
   ],
   "note": "Proved for all histories in which nothing comes between the changes of a request: queue and server agree on groups, and after each look at the ready jobs every job that was ready is handed exactly to runners of the group it now belongs to. The code violates the rest: a look between the change of a job and that of its key leaves it in its old group for ever (C146_violated_stuck); before the look runners of the old group get it (C146_violated_before); the priority of a job that was run before is not changed (C146_violated_priority); a job deleted and added again meanwhile gets the group of the old one (C146_violated_again)."
  },
  {
   "property": "C147",
   "status": "partial",
   "theorems": [
    "Verif.Client.Dirs.C147_clean",
    "Verif.Client.Dirs.C147_safe",
    "Verif.Client.Dirs.C147_alone",
    "Verif.Client.Dirs.C147_hold_partial",
    "Verif.Client.Dirs.C147_tries_partial",
    "Verif.Client.Dirs.C147_making_partial",
    "Verif.Client.Dirs.C147_violated_hold",
    "Verif.Client.Dirs.C147_violated_mkdir"
   ],
   "note": "Proved for every order of system calls of any number of clients: the directory of a running job and all above it are there and nobody else's (C147_safe), when all clients are over nothing is left (C147_clean), and a client that is left alone gets its directory in every reachable state (C147_alone). That every job gets its directory is proved as long as nobody removes one (C147_making_partial). If no two clients of the same hashed directory are between making and removing the hold file at the same time, a client gets it once its hold file is made (C147_hold_partial) and fails only if directories were removed at least four times (C147_tries_partial). The code violates the rest: the hold file is one for all clients of a hashed directory and the first to be done removes it (C147_violated_hold), and os.MkdirAll is tried four times only while others come and go (C147_violated_mkdir)."
  },
  {
   "property": "C15",
   "status": "proved",
   "theorems": [
    "Verif.Limiter.C15_undo",
    "Verif.Limiter.C15_nonneg",
    "Verif.Limiter.C15_unknown",
    "Verif.Limiter.C15_forgotten"
   ],
   "note": ""
  },
  {
   "property": "C16",
   "status": "partial",
   "theorems": [
    "Verif.Limiter.C16_partial",
    "Verif.Limiter.C16_violated",
    "Verif.Limiter.C16_lowest_partial",
    "Verif.Limiter.C16_violated_lowest"
   ],
   "note": "Holds for lists of counted groups; false when the list holds an open time window (C16_violated). GetLowestLimit is right for counted groups; for a time window it gives the window's end (C16_violated_lowest)."
  },
  {
   "property": "C17",
   "status": "partial",
   "theorems": [
    "Verif.Limiter.C17_partial",
    "Verif.Limiter.C17_violated"
   ],
   "note": "Holds for every window that does not cross midnight and for datetime windows; for every overnight window it is false (C17_violated)."
  },
  {
   "property": "C18",
   "status": "proved",
   "theorems": [
    "Verif.Limiter.C18_windows",
    "Verif.Limiter.C18_only",
    "Verif.Limiter.C18_count",
    "Verif.Limiter.C18_plain",
    "Verif.Limiter.C18_unambiguous",
    "Verif.Limiter.C18_dates"
   ],
   "note": ""
  },
  {
   "property": "C19",
   "status": "partial",
   "theorems": [
    "Verif.Rp.C19_partial",
    "Verif.Rp.C19_violated_shutdown",
    "Verif.Rp.C19_violated_negative"
   ],
   "note": "Holds without Shutdown and negative requests; both break it."
  },
  {
   "property": "C20",
   "status": "partial",
   "theorems": [
    "Verif.Rp.C20_order",
    "Verif.Rp.C20_final",
    "Verif.Rp.C20_released",
    "Verif.Rp.C20_violated_wait"
   ],
   "note": "Order and finality (as told by Granted) hold in full; WaitUntilGranted can return true for tokens already taken back (C20_violated_wait)."
  },
  {
   "property": "C21",
   "status": "partial",
   "theorems": [
    "Verif.Rp.C21_partial",
    "Verif.Rp.C21_violated",
    "Verif.Rp.C21_violated_start"
   ],
   "note": "Holds if a started process runs before anything else happens; false in general."
  },
  {
   "property": "C22",
   "status": "proved",
   "theorems": [
    "Verif.Server.C22_modes",
    "Verif.Server.C22_drain_final"
   ],
   "note": ""
  },
  {
   "property": "C23",
   "status": "proved",
   "theorems": [
    "Verif.Server.C23_retries",
    "Verif.Server.C23_kick"
   ],
   "note": ""
  },
  {
   "property": "C24",
   "status": "partial",
   "theorems": [
    "Verif.Server.C24_owner",
    "Verif.Server.C24_running",
    "Verif.Server.C24_release_partial",
    "Verif.Server.C24_violated"
   ],
   "note": "Ownership and running checks hold in full; jrelease/jbury do not check that the job is running, so an earlier owner's late request can move a job (C24_violated)."
  },
  {
   "property": "C25",
   "status": "proved",
   "theorems": [
    "Verif.Server.Auth.C25_match",
    "Verif.Server.Auth.C25_denied",
    "Verif.Server.Auth.C25_allowed",
    "Verif.Server.Auth.C25_http"
   ],
   "note": ""
  },
  {
   "property": "C26",
   "status": "proved",
   "theorems": [
    "Verif.Server.C26_archive",
    "Verif.Server.C26_once"
   ],
   "note": ""
  },
  {
   "property": "C27",
   "status": "partial",
   "theorems": [
    "Verif.Server.Db.C27_partial",
    "Verif.Server.Db.C27_never_lost",
    "Verif.Server.Db.C27_violated",
    "Verif.Server.Db.C27_violated_archive"
   ],
   "note": "Holds at every crash point if no two requests about the same job overlap; false when an add overlaps a delete or an archive of the same job."
  },
  {
   "property": "C28",
   "status": "proved",
   "theorems": [
    "Verif.Server.Db.C28"
   ],
   "note": ""
  },
  {
   "property": "C29",
   "status": "partial",
   "theorems": [
    "Verif.Server.Recover.C29_deps",
    "Verif.Server.Recover.C29_partial",
    "Verif.Server.Recover.C29_violated"
   ],
   "note": "Recovered items have the recorded data and exactly the incomplete dependencies; buried and running jobs keep their state only when they have no incomplete dependency: the exception is proved as a violation."
  },
  {
   "property": "C30",
   "status": "partial",
   "theorems": [
    "Verif.Server.Delete.C30_partial",
    "Verif.Server.Delete.C30_violated_race",
    "Verif.Server.Delete.C30_violated_stale",
    "Verif.Server.Delete.C30_circle"
   ],
   "note": "Holds for a request that runs alone; concurrent adds and updates with stale data violate it, and jobs in a circle of dependencies are never deleted."
  },
  {
   "property": "C31",
   "status": "partial",
   "theorems": [
    "Verif.Server.Listing.C31_limit_partial",
    "Verif.Server.Listing.C31_filter_partial",
    "Verif.Server.Listing.groupName_inj",
    "Verif.Server.Listing.C31_violated_deletable",
    "Verif.Server.Listing.C31_violated_reason"
   ],
   "note": "Exact for every filter but deletable; deletable returns running jobs, and without a limit and a state the fail reason is ignored."
  },
  {
   "property": "C32",
   "status": "proved",
   "theorems": [
    "Verif.Server.Sgroup.C32_decrement",
    "Verif.Server.Sgroup.C32_total",
    "Verif.Server.Sgroup.C32_sum"
   ],
   "note": ""
  },
  {
   "property": "C33",
   "status": "partial",
   "theorems": [
    "Verif.Server.C33_partial",
    "Verif.Server.C33_limit_partial",
    "Verif.Server.C33_violated_dependency",
    "Verif.Server.C33_violated_archive"
   ],
   "note": "Holds without the dependency update of createJobs and without refused archive requests; both break it."
  },
  {
   "property": "C34",
   "status": "partial",
   "theorems": [
    "Verif.Server.Groups.C34_partial",
    "Verif.Server.Groups.C34_iff",
    "Verif.Server.Groups.C34_violated_comma",
    "Verif.Server.Groups.C34_violated_tilde"
   ],
   "note": "Holds exactly for names without ',' and requirement strings without '~'."
  },
  {
   "property": "C35",
   "status": "partial",
   "theorems": [
    "Verif.Server.Keys.C35_partial",
    "Verif.Server.Keys.C35_violated_dir",
    "Verif.Server.Keys.C35_violated_image"
   ],
   "note": "Holds up to the hash and for directories and images that cannot be confused with the command; not in general."
  },
  {
   "property": "C36",
   "status": "proved",
   "theorems": [
    "Verif.Utils.C36_once",
    "Verif.Utils.C36_ok"
   ],
   "note": ""
  },
  {
   "property": "C37",
   "status": "proved",
   "theorems": [
    "Verif.Utils.C37_saver"
   ],
   "note": ""
  },
  {
   "property": "C38",
   "status": "partial",
   "theorems": [
    "Verif.Utils.C38_plain",
    "Verif.Utils.C38_partial",
    "Verif.Utils.C38_violated",
    "Verif.Utils.C38_violated_crlf"
   ],
   "note": "Holds for text without carriage returns and for progress whose last piece is ended by one; what follows the last carriage return of a line is lost."
  },
  {
   "property": "C39",
   "status": "partial",
   "theorems": [
    "Verif.Utils.C39_partial",
    "Verif.Utils.C39_once_partial",
    "Verif.Utils.C39_rest_partial",
    "Verif.Utils.C39_violated"
   ],
   "note": "Holds for original environments without a name twice; false otherwise."
  },
  {
   "property": "C40",
   "status": "proved",
   "theorems": [
    "Verif.Utils.C40_enough"
   ],
   "note": ""
  },
  {
   "property": "C41",
   "status": "partial",
   "theorems": [
    "Verif.Utils.C41_partial",
    "Verif.Utils.C41_grows",
    "Verif.Utils.C41_attempt_partial",
    "Verif.Utils.C41_violated_max",
    "Verif.Utils.C41_violated_255"
   ],
   "note": "The upper bound is the maximum plus the minimum, not the maximum; with 255 retries the first delay is the longest."
  },
  {
   "property": "C42",
   "status": "partial",
   "theorems": [
    "Verif.Sched.C42_partial",
    "Verif.Sched.C42_exclusive",
    "Verif.Sched.C42_settles",
    "Verif.Sched.C42_violated"
   ],
   "note": "Holds if no call is made between the end of an earlier call and the start of the goroutine it leaves behind; false otherwise."
  },
  {
   "property": "C43",
   "status": "partial",
   "theorems": [
    "Verif.Sched.Local.C43_partial",
    "Verif.Sched.Local.C43_fits",
    "Verif.Sched.Local.C43_zero_ram",
    "Verif.Sched.Local.C43_violated"
   ],
   "note": "Holds if no command takes longer than a minute to start; false otherwise. Cores are exact numbers in the model."
  },
  {
   "property": "C44",
   "status": "partial",
   "theorems": [
    "Verif.Sched.Local.C44_partial",
    "Verif.Sched.Local.C44_begins_partial",
    "Verif.Sched.Local.C44_violated_cancel",
    "Verif.Sched.Local.C44_violated_race",
    "Verif.Sched.Local.C44_violated_broken"
   ],
   "note": "Holds for histories that avoid three defects, each proved as a violation."
  },
  {
   "property": "C45",
   "status": "proved",
   "theorems": [
    "Verif.Cloud.C45_fits",
    "Verif.Cloud.C45_space",
    "Verif.Cloud.C45_undo",
    "Verif.Cloud.C45_flavor"
   ],
   "note": "Cores are exact numbers in the model, where the code rounds floats."
  },
  {
   "property": "C46",
   "status": "partial",
   "theorems": [
    "Verif.Cloud.C46_partial",
    "Verif.Cloud.C46_violated_choice",
    "Verif.Cloud.C46_violated_marked",
    "Verif.Cloud.C46_violated_zero"
   ],
   "note": "Holds for histories that avoid three defects, each proved as a violation."
  },
  {
   "property": "C47",
   "status": "partial",
   "theorems": [
    "Verif.Client.C47_order",
    "Verif.Client.C47_error",
    "Verif.Client.C47_once_partial",
    "Verif.Client.C47_violated_twice",
    "Verif.Client.C47_json",
    "Verif.Client.C47_json_partial",
    "Verif.Client.C47_violated_json",
    "Verif.Client.C47_remove",
    "Verif.Client.C47_violated_remove"
   ],
   "note": "Order and errors proved in full; 'each once' and the round trip fail for behaviours with combined triggers, proved as violations."
  },
  {
   "property": "C48",
   "status": "partial",
   "theorems": [
    "Verif.Bsub.C48_roundtrip_partial",
    "Verif.Bsub.C48_normal_partial",
    "Verif.Bsub.C48_rewrite_partial",
    "Verif.Bsub.C48_again",
    "Verif.Bsub.C48_unmentioned",
    "Verif.Bsub.C48_sections",
    "Verif.Bsub.C48_space",
    "Verif.Bsub.C48_violated_bang",
    "Verif.Bsub.C48_violated_dropped",
    "Verif.Bsub.C48_violated_reversed",
    "Verif.Bsub.C48_violated_braces",
    "Verif.Bsub.C48_violated_call"
   ],
   "note": "Round trip for every string that parses, but for an exclamation mark on its own before = or == (C48_violated_bang). Rewriting, read back from the printed text, for sections whose name is a plain word and where no later clause starts with a parenthesis (C48_violated_call). Strings the tokeniser cannot read to the end are cut without an error (C48_violated_dropped), mem on the right of a comparison is kept (C48_violated_reversed), alternatives in braces are treated as select or not at all (C48_violated_braces). Rewriting twice is rewriting once; what names neither mem nor hosts, and other sections, are left alone."
  },
  {
   "property": "C49",
   "status": "partial",
   "theorems": [
    "Verif.Sched.Lsf.C49_partial",
    "Verif.Sched.Lsf.C49_explicit",
    "Verif.Sched.Lsf.C49_safe",
    "Verif.Sched.Lsf.C49_violated_unlimited",
    "Verif.Sched.Lsf.C49_violated_unknown"
   ],
   "note": "Holds if named queues exist and where a queue has no limit the job wants no more than the number the code makes up for it; both are needed."
  },
  {
   "property": "C50",
   "status": "partial",
   "theorems": [
    "Verif.Cloud.Flavors.C50",
    "Verif.Cloud.Flavors.C50_order",
    "Verif.Cloud.Flavors.C50_sets_partial",
    "Verif.Cloud.Flavors.C50_violated_panic"
   ],
   "note": "CheapestServerFlavor in full; CheapestServerFlavors for sets without empty patterns, on which it panics."
  },
  {
   "property": "C51",
   "status": "partial",
   "theorems": [
    "Verif.Sched.Openstack.C51_quota",
    "Verif.Sched.Openstack.C51_max_partial",
    "Verif.Sched.Openstack.C51_most",
    "Verif.Sched.Openstack.C51_violated_max"
   ],
   "note": "The quota in full, and the number is the greatest one; the configured maximum only if there is a quota of instances above it."
  },
  {
   "property": "C52",
   "status": "partial",
   "theorems": [
    "Verif.Client.C52_action_partial",
    "Verif.Client.C52_once",
    "Verif.Client.C52_nil",
    "Verif.Client.C52_partial",
    "Verif.Client.C52_violated_upload",
    "Verif.Client.C52_violated_kill",
    "Verif.Client.C52_violated_time",
    "Verif.Client.C52_violated_lost",
    "Verif.Client.C52_reason",
    "Verif.Client.C52_exitcode"
   ],
   "note": "The decision is characterised exactly; it differs from the property for failed uploads and for kills or late failures that coincide with a lack of resources or a signal. A nil error means archived if no upload failed; the converse fails when an answer is lost."
  },
  {
   "property": "C53",
   "status": "partial",
   "theorems": [
    "Verif.Server.Convert.C53_partial",
    "Verif.Server.Convert.C53_refused",
    "Verif.Server.Convert.C53_violated_false",
    "Verif.Server.Convert.C53_violated_empty",
    "Verif.Server.Convert.C53_negative"
   ],
   "note": "Holds for every field if no member is an empty string, an empty list or false; such members do not override defaults."
  },
  {
   "property": "C54",
   "status": "partial",
   "theorems": [
    "Verif.Queue.C54_partial",
    "Verif.Queue.C54_violated_destroy"
   ],
   "note": "All operations except Destroy."
  },
  {
   "property": "C55",
   "status": "partial",
   "theorems": [
    "Verif.Limiter.C55_partial",
    "Verif.Limiter.C55_violated",
    "Verif.Limiter.C55_violated_holders"
   ],
   "note": "Holds for limits that are not negative; -1 leaves the old limit in force and forgets the holders."
  },
  {
   "property": "C56",
   "status": "partial",
   "theorems": [
    "Verif.Rp.C56_partial",
    "Verif.Rp.C56_progress_partial",
    "Verif.Rp.C56_fits_partial",
    "Verif.Rp.C56_violated_zero",
    "Verif.Rp.C56_violated_timeout"
   ],
   "note": "C56_fits_partial: a request that fits is about to be looked at, unless a wait before it timed out (C56_violated_timeout). Otherwise holds for a positive maximum, without Shutdown and negative requests; progress unless the lock is lost as in C57/C58."
  },
  {
   "property": "C57",
   "status": "partial",
   "theorems": [
    "Verif.Rp.C57_touch",
    "Verif.Rp.C57_violated"
   ],
   "note": "Touching what is not granted has no effect (C57_touch). Otherwise false of the code: two timed waits for a receipt that is then released."
  },
  {
   "property": "C58",
   "status": "partial",
   "theorems": [
    "Verif.Rp.C58_not_early_partial",
    "Verif.Rp.C58_violated"
   ],
   "note": "Never early; but two Touch calls at the wrong moment keep the tokens for ever."
  },
  {
   "property": "C59",
   "status": "partial",
   "theorems": [
    "Verif.Server.C59_partial",
    "Verif.Server.C59_violated",
    "Verif.Server.C59_violated_resume"
   ],
   "note": "Holds if requests do not overlap; false with a jmod in progress."
  },
  {
   "property": "C60",
   "status": "partial",
   "theorems": [
    "Verif.Server.C60_partial",
    "Verif.Server.C60_violated"
   ],
   "note": "Holds for reserve requests that arrive after the pause; false for one in flight."
  },
  {
   "property": "C61",
   "status": "partial",
   "theorems": [
    "Verif.Server.C61_partial",
    "Verif.Server.C61_violated_forgotten",
    "Verif.Server.C61_violated_stale",
    "Verif.Server.C61_violated_lost"
   ],
   "note": "Holds once the start of the run was reported; false between reservation and start."
  },
  {
   "property": "C62",
   "status": "partial",
   "theorems": [
    "Verif.Server.Sgroup.C62_partial",
    "Verif.Server.Sgroup.C62_violated"
   ],
   "note": "Holds if requests for a group do not overlap; false otherwise."
  },
  {
   "property": "C63",
   "status": "partial",
   "theorems": [
    "Verif.Server.Groups.C63_partial",
    "Verif.Server.Groups.C63_violated"
   ],
   "note": "Holds for names without ',' and '~'."
  },
  {
   "property": "C64",
   "status": "proved",
   "theorems": [
    "Verif.Server.Groups.C64_groups",
    "Verif.Server.Groups.C64_canonical"
   ],
   "note": ""
  },
  {
   "property": "C65",
   "status": "partial",
   "theorems": [
    "Verif.Server.Keys.C65_partial",
    "Verif.Server.Keys.C65_violated"
   ],
   "note": "Holds for jobs without a container image; false for container jobs."
  },
  {
   "property": "C66",
   "status": "partial",
   "theorems": [
    "Verif.Server.Keys.C66_order",
    "Verif.Server.Keys.C66_default",
    "Verif.Server.Keys.C66_differ",
    "Verif.Server.Keys.C66_mnt_partial",
    "Verif.Server.Keys.C66_violated_mnt",
    "Verif.Server.Keys.C66_violated_differ"
   ],
   "note": "The order does not matter (C66_order), nor does the default profile (C66_default); a single target that differs gives another key (C66_differ). The default mount point does not matter for a job with one mount (C66_mnt_partial), but with two it does (C66_violated_mnt); a semicolon in a path makes different mounts look the same (C66_violated_differ)."
  },
  {
   "property": "C67",
   "status": "partial",
   "theorems": [
    "Verif.Utils.C67_partial",
    "Verif.Utils.C67_violated",
    "Verif.Utils.C67_violated_panic"
   ],
   "note": "Holds for entries with exactly one '='."
  },
  {
   "property": "C68",
   "status": "partial",
   "theorems": [
    "Verif.Server.Db.C68_partial",
    "Verif.Server.Db.C68_violated_order",
    "Verif.Server.Db.C68_violated_duplicate",
    "Verif.Server.Db.C68_violated_readded"
   ],
   "note": "Holds if the delayed writes are carried out in order and a job is not added again while live or with writes outstanding; false in each of these cases."
  },
  {
   "property": "C69",
   "status": "partial",
   "theorems": [
    "Verif.Cloud.C69_partial",
    "Verif.Cloud.C69_violated"
   ],
   "note": "Holds if nothing is released while a cancellation of the countdown is being dealt with; false otherwise."
  },
  {
   "property": "C70",
   "status": "partial",
   "theorems": [
    "Verif.Client.C70_partial",
    "Verif.Client.C70_violated_close",
    "Verif.Client.C70_violated_lost",
    "Verif.Client.C70_violated_upload"
   ],
   "note": "Holds if monitoring, killing, closing and uploading did not fail and the server answers the first request that reaches it; false otherwise, proved as violations."
  },
  {
   "property": "C71",
   "status": "partial",
   "theorems": [
    "Verif.Sched.Spawn.C71_partial",
    "Verif.Sched.Spawn.C71_max_partial",
    "Verif.Sched.Spawn.C71_violated_race",
    "Verif.Sched.Spawn.C71_violated_max",
    "Verif.Sched.Spawn.C71_violated_volume"
   ],
   "note": "Holds if more is spawned only once earlier goroutines made their reservations (for the maximum: once servers are registered); false otherwise, proved as violations."
  },
  {
   "property": "C72",
   "status": "partial",
   "theorems": [
    "Verif.Sched.Openstack.C72_spawn",
    "Verif.Sched.Openstack.C72_partial",
    "Verif.Sched.Openstack.C72_violated_ram",
    "Verif.Sched.Openstack.C72_violated_error"
   ],
   "note": "Holds with flavor sets and if the operating system needs no more RAM than the command; false otherwise, proved as violations."
  },
  {
   "property": "C73",
   "status": "proved",
   "theorems": [
    "Verif.Sched.Spawn.C73",
    "Verif.Sched.Spawn.C73_needed"
   ],
   "note": ""
  },
  {
   "property": "C74",
   "status": "partial",
   "theorems": [
    "Verif.Sched.Spawn.C74_partial",
    "Verif.Sched.Spawn.C74_violated"
   ],
   "note": "Holds unless an image or flavor is unknown; then the reservation stays for ever."
  },
  {
   "property": "C75",
   "status": "proved",
   "theorems": [
    "Verif.Sched.Openstack.C75",
    "Verif.Sched.Openstack.C75_stays"
   ],
   "note": ""
  },
  {
   "property": "C76",
   "status": "partial",
   "theorems": [
    "Verif.Sched.Lsf.C76_kill",
    "Verif.Sched.Lsf.C76_left",
    "Verif.Sched.Lsf.C76_enough",
    "Verif.Sched.Lsf.C76_atmost_partial",
    "Verif.Sched.Lsf.C76_partial",
    "Verif.Sched.Lsf.C76_scheduled",
    "Verif.Sched.Lsf.C76_violated_single",
    "Verif.Sched.Lsf.C76_violated_order"
   ],
   "note": "Only waiting jobs are killed and there are enough jobs, in full; the exact number if waiting jobs are array elements and running ones are listed first; false otherwise."
  },
  {
   "property": "C77",
   "status": "proved",
   "theorems": [
    "Verif.Sched.Lsf.C77_same",
    "Verif.Sched.Lsf.C77_once",
    "Verif.Sched.Lsf.C77_better",
    "Verif.Sched.Lsf.C77_unlimited",
    "Verif.Sched.Lsf.C77_unlimited_memory"
   ],
   "note": ""
  },
  {
   "property": "C78",
   "status": "partial",
   "theorems": [
    "Verif.Bsub.C78_passed",
    "Verif.Bsub.C78_when",
    "Verif.Bsub.C78_none_missed",
    "Verif.Bsub.C78_args_partial",
    "Verif.Bsub.C78_violated_panic",
    "Verif.Bsub.C78_violated_flag"
   ],
   "note": "What is passed on and when is characterised exactly; options without a value can make all be dropped, and a last -R crashes."
  },
  {
   "property": "C79",
   "status": "partial",
   "theorems": [
    "Verif.Bsub.C79_partial",
    "Verif.Bsub.C79_violated"
   ],
   "note": "Holds if the same options always come with the same queue; false otherwise."
  },
  {
   "property": "C80",
   "status": "partial",
   "theorems": [
    "Verif.Server.Learn.C80_partial",
    "Verif.Server.Learn.C80_percentile_partial",
    "Verif.Server.Learn.C80_violated_few",
    "Verif.Server.Learn.C80_violated_group",
    "Verif.Server.Learn.C80_violated_often"
   ],
   "note": "At most five values or 5% are above the recommendation, if no other group's records start with the name of this one; 95% only from a hundred values on, and of values, not of runs. Floating point is exact in the model."
  },
  {
   "property": "C81",
   "status": "partial",
   "theorems": [
    "Verif.Server.Learn.C81_user",
    "Verif.Server.Learn.C81_user_history",
    "Verif.Server.Learn.C81_learn",
    "Verif.Server.Learn.C81_failure",
    "Verif.Server.Learn.C81_history_partial",
    "Verif.Server.Learn.C81_violated_forgotten",
    "Verif.Server.Learn.C81_violated_zero",
    "Verif.Server.Learn.C81_violated_panic"
   ],
   "note": "Override 2 (for values that were given), and what one failure leads to, in full; that it is never forgotten only with override 1. With override 0 a later failure of another kind makes the job ask for less again."
  },
  {
   "property": "C82",
   "status": "partial",
   "theorems": [
    "Verif.Server.Store.C82_complete",
    "Verif.Server.Store.C82_named",
    "Verif.Server.Store.C82_found_partial",
    "Verif.Server.Store.C82_once_partial",
    "Verif.Server.Store.C82_violated_twice",
    "Verif.Server.Store.C82_violated_lost"
   ],
   "note": "Which complete jobs are listed is characterised exactly, and nothing foreign is listed, for all histories. That all are listed, and once, only without modification of re-run jobs and without additions that leave out jobs and bring back others at the same time; both break it."
  },
  {
   "property": "C83",
   "status": "partial",
   "theorems": [
    "Verif.Server.Store.walk_ends",
    "Verif.Server.Store.C83_queue",
    "Verif.Server.Store.C83_waits",
    "Verif.Server.Store.C83_current_partial",
    "Verif.Server.Store.C83_waits_current_partial",
    "Verif.Server.Store.C83_violated_stale",
    "Verif.Server.Store.C83_violated_waits"
   ],
   "note": "Exact with respect to the dependencies that jobs were ever stored with; with respect to those of their current records, only one direction holds, since a job that is added again without a dependency keeps it."
  },
  {
   "property": "C84",
   "status": "partial",
   "theorems": [
    "Verif.Server.Store.C84_partial",
    "Verif.Server.Store.C84_violated"
   ],
   "note": "Holds unless the request also brings back complete dependents; then all jobs in it are run again."
  },
  {
   "property": "C85",
   "status": "partial",
   "theorems": [
    "Verif.Server.Store.C85_partial",
    "Verif.Server.Store.C85_accepted_partial",
    "Verif.Server.Store.C85_violated_ignore",
    "Verif.Server.Store.C85_violated_modify",
    "Verif.Server.Store.C85_violated_refused"
   ],
   "note": "Holds for histories without modifications that put a job in a group that complete jobs depend on, and without additions as in C84_violated."
  },
  {
   "property": "C86",
   "status": "partial",
   "theorems": [
    "Verif.Server.Gate.C86_ends",
    "Verif.Server.Gate.C86_goes_on",
    "Verif.Server.Gate.C86_failed",
    "Verif.Server.Gate.C86_partial",
    "Verif.Server.Gate.C86_violated_duplicate",
    "Verif.Server.Gate.C86_violated_kick",
    "Verif.Server.Gate.C86_violated_pause",
    "Verif.Server.Gate.C86_violated_early"
   ],
   "note": "The work of the server always ends, and then nobody waits, if every addition brought a new job, every kick succeeded and the server is not paused. Otherwise clients can wait for ever, or until the end of a pause; and a client can be let through before new jobs have their groups."
  },
  {
   "property": "C87",
   "status": "partial",
   "theorems": [
    "Verif.Server.Store.C87_kept",
    "Verif.Server.Store.C87_same",
    "Verif.Server.Store.C87_changed",
    "Verif.Server.Store.C87_count",
    "Verif.Server.Modify.C87_fields",
    "Verif.Server.Modify.C87_keys",
    "Verif.Server.Modify.C87_behaviours_partial",
    "Verif.Server.Modify.C87_behaviours_last",
    "Verif.Server.Modify.C87_retries_partial",
    "Verif.Server.Modify.C87_violated_two",
    "Verif.Server.Modify.C87_violated_off",
    "Verif.Server.Modify.C87_violated_retries"
   ],
   "note": "In full for the queue, the keys and all fields but two. Behaviours are as asked for only if there is at most one per trigger; a new number of retries counts only after the job was buried and kicked."
  },
  {
   "property": "C88",
   "status": "partial",
   "theorems": [
    "Verif.Client.Files.C88_partial",
    "Verif.Client.Files.C88_files",
    "Verif.Client.Files.C88_others",
    "Verif.Client.Files.C88_all",
    "Verif.Client.Files.C88_mounts_gone",
    "Verif.Client.Files.C88_mounts_kept",
    "Verif.Client.Files.C88_ends_partial",
    "Verif.Client.Files.C88_job_partial",
    "Verif.Client.Files.C88_matters_partial",
    "Verif.Client.Files.C88_violated_loop",
    "Verif.Client.Files.C88_violated_modified",
    "Verif.Client.Files.Ex.C88_violated_lost",
    "Verif.Client.Files.Ex.C88_violated_slash"
   ],
   "note": "Holds for jobs whose unique directory was made for them, whose cwd is a clean path and whose relative mount points are in it. For a job that was modified to have cwd_matters, everything in the parent directory of its cwd is removed; a mount point like ../m makes it run for ever; a cwd with a final slash is removed itself if empty."
  },
  {
   "property": "C89",
   "status": "partial",
   "theorems": [
    "Verif.Server.Backup.C89_whole",
    "Verif.Server.Backup.C89_one",
    "Verif.Server.Backup.C89_forward",
    "Verif.Server.Backup.C89_ends",
    "Verif.Server.Backup.C89_goes_on",
    "Verif.Server.Backup.C89_latest_partial",
    "Verif.Server.Backup.C89_close_partial",
    "Verif.Server.Backup.C89_off",
    "Verif.Server.Backup.C89_gap",
    "Verif.Server.Backup.C89_violated_stop",
    "Verif.Server.Backup.C89_violated_late",
    "Verif.Server.Backup.C89_violated_unasked",
    "Verif.Server.Backup.C89_violated_failed",
    "Verif.Server.Backup.C89_violated_restart"
   ],
   "note": "Whole, one at a time, never back, and spaced out: in full. A change gets into the backup if it asks for one, nothing fails and the manager is not stopped at the wrong moment; results of failed runs do not ask, failed backups are not repeated."
  },
  {
   "property": "C90",
   "status": "partial",
   "theorems": [
    "Verif.Server.InitDb.C90_kept",
    "Verif.Server.InitDb.C90_backup",
    "Verif.Server.InitDb.C90_source",
    "Verif.Server.InitDb.C90_restored",
    "Verif.Server.InitDb.C90_crash_partial",
    "Verif.Server.InitDb.C90_refused",
    "Verif.Server.InitDb.C90_development",
    "Verif.Server.InitDb.C90_violated_torn",
    "Verif.Server.InitDb.C90_violated_s3"
   ],
   "note": "Holds with a local backup if bolt refuses files that are cut short; a copy that is cut short can be taken for the database, and a manager that cannot download its backup starts empty."
  },
  {
   "property": "C91",
   "status": "partial",
   "theorems": [
    "Verif.Utils.JobEnv.C91_env_partial",
    "Verif.Utils.JobEnv.C91_add_partial",
    "Verif.Utils.JobEnv.C91_runs",
    "Verif.Utils.JobEnv.C91_runner_partial",
    "Verif.Utils.JobEnv.C91_path_partial",
    "Verif.Utils.JobEnv.C91_keep_partial",
    "Verif.Utils.JobEnv.C91_alone",
    "Verif.Utils.JobEnv.C91_exec_partial",
    "Verif.Utils.JobEnv.C91_lsf_partial",
    "Verif.Utils.JobEnv.C91_container_partial",
    "Verif.Utils.JobEnv.C91_mounts",
    "Verif.Utils.JobEnv.C91_violated_leak",
    "Verif.Utils.JobEnv.C91_violated_nopath",
    "Verif.Utils.JobEnv.C91_violated_substring",
    "Verif.Utils.JobEnv.C91_violated_lsf",
    "Verif.Utils.JobEnv.C91_violated_panic",
    "Verif.Utils.JobEnv.C91_violated_container",
    "Verif.Utils.JobEnv.C91_violated_docker",
    "Verif.Utils.JobEnv.C91_violated_twice"
   ],
   "note": "Holds for environments without a name twice, except PATH: a job whose PATH needs no addition runs with the PATH of an earlier job of the same runner. Values with a colon are cut on their way into containers, a PATH with an equals sign in bsub mode."
  },
  {
   "property": "C92",
   "status": "partial",
   "theorems": [
    "Verif.Utils.Config.C92_precedence_partial",
    "Verif.Utils.Config.C92_order",
    "Verif.Utils.Config.C92_env",
    "Verif.Utils.Config.C92_source",
    "Verif.Utils.Config.C92_source_env",
    "Verif.Utils.Config.C92_deployment",
    "Verif.Utils.Config.C92_plain",
    "Verif.Utils.Config.C92_files",
    "Verif.Utils.Config.C92_apart",
    "Verif.Utils.Config.C92_ports",
    "Verif.Utils.Config.C92_ports_web",
    "Verif.Utils.Config.C92_ports_set",
    "Verif.Utils.Config.C92_ports_distinct",
    "Verif.Utils.Config.C92_toenv_partial",
    "Verif.Utils.Config.C92_umask_partial",
    "Verif.Utils.Config.C92_remote_partial",
    "Verif.Utils.Config.C92_violated_zero",
    "Verif.Utils.Config.C92_violated_zero_env",
    "Verif.Utils.Config.C92_violated_web",
    "Verif.Utils.Config.C92_violated_root",
    "Verif.Utils.Config.C92_violated_umask",
    "Verif.Utils.Config.C92_violated_umask_none",
    "Verif.Utils.Config.C92_violated_remote",
    "Verif.Utils.Config.C92_violated_toenv"
   ],
   "note": "Holds for settings that are not zero values; a zero becomes the default. A web port that is set alone is ignored. Umasks of more than one digit are misread from the environment and on remote command lines. configor.Load is taken to do what its documentation says."
  },
  {
   "property": "C93",
   "status": "partial",
   "theorems": [
    "Verif.Server.Counts.C93_counts_partial",
    "Verif.Server.Counts.C93_start_partial",
    "Verif.Server.Counts.C93_positive_partial",
    "Verif.Server.Counts.C93_stale_partial",
    "Verif.Server.Counts.C93_sum",
    "Verif.Server.Counts.C93_snapshot",
    "Verif.Server.Counts.C93_follow_partial",
    "Verif.Server.Counts.C93_violated_lost",
    "Verif.Server.Counts.C93_violated_listing",
    "Verif.Server.Counts.C93_violated_group"
   ],
   "note": "Callbacks are taken to run in the order of the changes (the queue starts each in a goroutine of its own). The Lost mark of a job survives its release, so a client that reserves the job and goes away before it starts it makes the counts wrong for ever; while the job is not started, the listing says lost. A modification of the report group sends nothing. What remains of the claim is proved for all histories without these, and that stale marks are all that listings differ by."
  },
  {
   "property": "C94",
   "status": "partial",
   "theorems": [
    "Verif.Server.RacTimer.C94_one",
    "Verif.Server.RacTimer.C94_armed",
    "Verif.Server.RacTimer.C94_due",
    "Verif.Server.RacTimer.C94_lock",
    "Verif.Server.RacTimer.C94_again_partial",
    "Verif.Server.RacTimer.C94_violated_deadlock",
    "Verif.Server.RacTimer.C94_violated_receive"
   ],
   "note": "The code can deadlock: a check that has received from the timer but does not yet have racmutex, and a callback that has racmutex and receives from the same timer, wait for each other for ever; all else that needs racmutex (adding jobs, scheduling) then blocks too. Proved for all other states: the callback can always come to schedule again by internal steps only. Semantics of timers are those of Go 1.23."
  },
  {
   "property": "C95",
   "status": "partial",
   "theorems": [
    "Verif.Server.Rac.C95_told",
    "Verif.Server.Rac.C95_once",
    "Verif.Server.Rac.C95_kept",
    "Verif.Server.Rac.C95_skipped",
    "Verif.Server.Rac.C95_priority",
    "Verif.Server.Rac.C95_priority_first",
    "Verif.Server.Rac.C95_priority_some",
    "Verif.Server.Rac.C95_impossible",
    "Verif.Server.Rac.C95_error",
    "Verif.Server.Rac.C95_agree_partial",
    "Verif.Server.Rac.C95_rac_partial",
    "Verif.Server.Rac.C95_violated_retry",
    "Verif.Server.Rac.C95_violated_shared"
   ],
   "note": "Each run of the callback tells the right numbers. After an error of the scheduler the old numbers are told again later even if newer ones were told since. The room of a limit is given to each scheduler group with that limit."
  },
  {
   "property": "C96",
   "status": "partial",
   "theorems": [
    "Verif.Cmd.AddFile.C96_lines",
    "Verif.Cmd.AddFile.C96_last",
    "Verif.Cmd.AddFile.C96_long",
    "Verif.Cmd.AddFile.C96_plain",
    "Verif.Cmd.AddFile.C96_tab",
    "Verif.Cmd.AddFile.C96_json",
    "Verif.Cmd.AddFile.C96_bad",
    "Verif.Cmd.AddFile.C96_columns",
    "Verif.Cmd.AddFile.C96_all_partial",
    "Verif.Cmd.AddFile.C96_added",
    "Verif.Cmd.AddFile.C96_nothing",
    "Verif.Cmd.AddFile.C96_commands",
    "Verif.Cmd.AddFile.C96_convert",
    "Verif.Cmd.AddFile.C96_violated_skip",
    "Verif.Cmd.AddFile.C96_violated_null",
    "Verif.Cmd.AddFile.C96_violated_cwd"
   ],
   "note": "Lines that begin with a tab are passed over without a word even if there are options with a command after it; `null` options end the program with a nil pointer dereference; cwd_matters in a line does not change the default working directory as --cwd_matters does."
  },
  {
   "property": "C97",
   "status": "partial",
   "theorems": [
    "Verif.Server.Rest.C97_kill_partial",
    "Verif.Server.Rest.C97_refused",
    "Verif.Server.Rest.C97_only",
    "Verif.Server.Rest.C97_get_key",
    "Verif.Server.Rest.C97_get_done",
    "Verif.Server.Rest.C97_get_all_partial",
    "Verif.Server.Rest.C97_delete_partial",
    "Verif.Server.Rest.C97_post",
    "Verif.Server.Rest.C97_web",
    "Verif.Server.Rest.C97_web_key",
    "Verif.Server.Rest.C97_web_states",
    "Verif.Server.Rest.C97_web_kill",
    "Verif.Server.Rest.C97_web_remove",
    "Verif.Server.Rest.C97_violated_delete",
    "Verif.Server.Rest.C97_violated_state",
    "Verif.Server.Rest.C97_violated_stop",
    "Verif.Server.Rest.C97_violated_word"
   ],
   "note": "Holds for groups and for running or lost jobs. A request to delete what can be deleted also deletes jobs that run; with a key the state is ignored; a complete job named first stops the rest from being killed; a misspelt state lists everything."
  },
  {
   "property": "C98",
   "status": "partial",
   "theorems": [
    "Verif.Cmd.Runner.C98_handled",
    "Verif.Cmd.Runner.C98_time_partial",
    "Verif.Cmd.Runner.C98_time_other",
    "Verif.Cmd.Runner.C98_stop",
    "Verif.Cmd.Runner.C98_told",
    "Verif.Cmd.Runner.C98_goes_on",
    "Verif.Cmd.Runner.C98_timeout",
    "Verif.Cmd.Runner.C98_violated_late"
   ],
   "note": "a job is only run if there was time for it when the runner began to wait for it (C98_time_partial); if it is expected to take as long as the one before, the time spent waiting is not counted, so it can be started too late (C98_violated_late, runner.go:205)."
  },
  {
   "property": "C99",
   "status": "partial",
   "theorems": [
    "Verif.Queue.Timer.C99_in_time_partial",
    "Verif.Queue.Timer.C99_exact_partial",
    "Verif.Queue.Timer.C99_overdue_partial",
    "Verif.Queue.Timer.C99_due",
    "Verif.Queue.Timer.C99_goroutine",
    "Verif.Queue.Timer.C99_returns_partial",
    "Verif.Queue.Timer.C99_violated_update",
    "Verif.Queue.Timer.C99_violated_many",
    "Verif.Queue.Timer.C99_violated_destroy"
   ],
   "note": "in time unless Update makes an item due earlier (it never wakes the goroutine: C99_violated_update), or AddMany is given an item that is only just due before the goroutine wakes before others that are due earlier (C99_violated_many); calls return unless the queue is destroyed between putting the item and waking the goroutine (C99_violated_destroy)."
  }
 ]
}