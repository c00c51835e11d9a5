import Verif.Util.Str

/-!
# Configuration (internal/config.go 60-600)

Values are texts (numbers in decimal, booleans as true and false).  Reading a file or an environment variable that does
not parse ends the process and is not modelled.  configor.Load (github.com/jinzhu/configor v1.2.2, not part of the
repository) is taken to do what its documentation says: set the fields the file has, then those for which there is a
non-empty environment variable, and give fields that then have the zero value of their type their default.
-/

namespace Verif.Utils.Config

abbrev Str := List Char

/-- The fields of Config (config.go:93-132): those the code treats in its own way, and the others. -/
inductive Field
  | port | web | dir | pidFile | logFile | dbFile | dbBkFile | tokenFile | uploadDir | umask | caFile | certFile | keyFile
  | deployment | cloudServers
  | other (n : Nat)
deriving DecidableEq, Repr

/-- The zero value of the type of a field and the value of its `default` tag (config.go:93-132). -/
structure Schema where
  blank : Field → Str
  dflt : Field → Str

/-- The values a file sets, parsed. -/
abbrev File := Field → Option Str

/-- Where a value comes from (config.go:40-46, 139-150): `none` in `src` is "default". -/
inductive Source
  | env
  | file (path : Str)
deriving DecidableEq, Repr

/-- A Config with its sources. -/
structure Config where
  val : Field → Str
  src : Field → Option Source

/-- config.go:299-305 fixEnvManagerUmask: `strings.TrimLeft(umask, "0")` -/
def trim0 : Str → Str
  | '0' :: cs => trim0 cs
  | cs => cs

/-- The environment variable of a field as configor finds it: not there if empty. -/
def envOf (vars : Field → Str) (f : Field) : Option Str :=
  let t := if f = .umask then trim0 (vars f) else vars f
  if t = [] then none else some t

/-- configor.Load into `c`. -/
def load (s : Schema) (vars : Field → Str) (file : File) (c : Field → Str) (f : Field) : Str :=
  let v := (file f).getD (c f)
  let v := (envOf vars f).getD v
  if v = s.blank f then s.dflt f else v

/-- config.go:330-354 merge -/
def merge (c : Config) (new : Field → Str) (source : Source) : Config where
  val f := if new f ≠ c.val f then new f else c.val f
  src f := if new f ≠ c.val f then some source else c.src f

/-- config.go:273-284 mergeDefaultAndEnvVarsConfigs, with 286-294 and 309-325 -/
def start (s : Schema) (vars : Field → Str) : Config :=
  merge ⟨s.dflt, fun _ => none⟩ (load s vars (fun _ => none) s.blank) .env

/-- The files there are: a file may be absent. -/
abbrev Disk := Str → Option File

/-- config.go:380-392 configLoadFromFile; 395-417 clone -/
def loadFile (s : Schema) (vars : Field → Str) (disk : Disk) (c : Config) (path : Str) : Config :=
  match disk path with
  | none => c
  | some file => merge c (load s vars file c.val) (.file path)

/-- config.go:356-373: the names of the files, in the order in which they are read; `configDir` is $WR_CONFIG_DIR.
`filepath.Join(dir, name)` is written `dir/name`. -/
def paths (configDir home pwd deployment : Str) : List Str :=
  let common := "/.wr_config.yml".toList
  let dep := "/.wr_config.".toList ++ deployment ++ ".yml".toList
  (if configDir = [] then [] else [configDir ++ common, configDir ++ dep]) ++
    [home ++ common, home ++ dep, pwd ++ common, pwd ++ dep]

/-- config.go:241-251 and 356-373 up to adjustConfigProperties -/
def mergeAll (s : Schema) (vars : Field → Str) (disk : Disk) (ps : List Str) : Config :=
  ps.foldl (loadFile s vars disk) (start s vars)

/-- config.go:243-245, 253-271: the deployment in use; `opt` is the one asked for on the command line, `inRepo` tells if
the current directory is that of wr's source. -/
def deploymentOf (opt var : Str) (inRepo : Bool) : Str :=
  if opt ≠ "development".toList ∧ opt ≠ "production".toList then
    if var ≠ [] ∧ (var = "development".toList ∨ var = "production".toList) then var
    else if inRepo then "development".toList else "production".toList
  else opt

/-! ## adjusting -/

/-- What adjusting needs from outside: `fp.TildaToHome`, `filepath.IsAbs`, `filepath.Join`, and the first of the four
free ports the user is offered and accepts (`none`: the process ends). -/
structure Outside where
  tilda : Str → Str
  isAbs : Str → Bool
  join : Str → Str → Str
  free : Option Nat

/-- The fields of config.go:451-467 that are made absolute without a condition. -/
def isPath : Field → Bool
  | .pidFile | .logFile | .uploadDir | .caFile | .certFile | .keyFile | .tokenFile | .dbFile => true
  | _ => false

/-- config.go:632-644 -/
def isRemote (p : Str) : Bool := "s3://".toList.isPrefixOf p

/-- config.go:438-475: adjustConfigProperties without the ports -/
def adjust (o : Outside) (deployment : Str) (c : Field → Str) (f : Field) : Str :=
  let dir := o.tilda (c .dir) ++ '_' :: deployment
  let abs := fun p => if o.isAbs p then p else o.join dir p
  match f with
  | .deployment => deployment
  | .dir => dir
  | .dbBkFile => if isRemote (c .dbBkFile) then c .dbBkFile else abs (c .dbBkFile)
  | f => if isPath f then abs (c f) else c f

/-- config.go:521-535 getMinPort; the second result says if the process goes on with it -/
def minPort (o : Outside) (uid : Nat) : Option Nat :=
  let pn := 1021 + uid * 4
  if pn + 4 - 1 > 65535 then o.free else some pn

/-- The decimal digits of a number; `k` bounds their number. -/
def dec : Nat → Nat → Str
  | 0, _ => []
  | k + 1, n => (if n < 10 then [] else dec k (n / 10)) ++ [Char.ofNat (48 + n % 10)]

/-- strconv.Itoa -/
def itoa (n : Nat) : Str := dec (n + 1) n

/-- config.go:492-512 calculatePort: the port, and the web port it sets on the config if it is for the command line
interface (`found` is always true there) -/
def calculatePort (o : Outside) (uid : Nat) (deployment : Str) (webi : Bool) (web : Str) : Str × Str :=
  match minPort o uid with
  | none => ([], web)
  | some 0 => ([], web)
  | some pn =>
    let pn := if deployment = "development".toList then pn + 2 else pn
    if webi then (itoa (pn + 1), web) else (itoa pn, itoa (pn + 1))

/-- config.go:478-486 setManagerPort -/
def setPorts (o : Outside) (uid : Nat) (c : Field → Str) : Field → Str :=
  let c1 : Field → Str := if c .port = [] then
      let x := calculatePort o uid (c .deployment) false (c .web)
      fun f => match f with | .port => x.1 | .web => x.2 | f => c f
    else c
  if c1 .web = [] then
    let x := calculatePort o uid (c1 .deployment) true (c1 .web)
    fun f => match f with | .web => x.1 | f => c1 f
  else c1

/-- ConfigLoadFromCurrentDir (config.go:219-251) from a deployment that was worked out -/
def config (s : Schema) (o : Outside) (vars : Field → Str) (disk : Disk) (ps : List Str) (uid : Nat)
    (deployment : Str) : Field → Str :=
  setPorts o uid (adjust o deployment (mergeAll s vars disk ps).val)

/-- `strings.TrimSuffix` -/
def trimSuffix (s suf : Str) : Str := if suf.isSuffixOf s then s.take (s.length - suf.length) else s

/-- config.go:196-216 ToEnv: the environment variables it sets -/
def toEnv (c : Field → Str) (f : Field) : Str :=
  match f with
  | .dir => trimSuffix (c .dir) ('_' :: c .deployment)
  | f => c f

/-! ## umask -/

/-- One more digit. -/
def digit (base : Nat) (acc : Option Nat) (c : Char) : Option Nat :=
  match acc with
  | none => none
  | some n => if c.toNat ≥ 48 ∧ c.toNat - 48 < base then some (n * base + (c.toNat - 48)) else none

/-- The number a text of digits means in a base (shell `umask` and YAML's `022` use 8, configor's numbers without a
leading zero 10). -/
def digits (base : Nat) (t : Str) : Option Nat := t.foldl (digit base) (some 0)

/-- scheduler/openstack.go:1190-1192: the umask argument of the remote command line for a Umask, `fmt.Sprintf("%d")` -/
def remoteUmask (n : Nat) : Str := itoa n

end Verif.Utils.Config
