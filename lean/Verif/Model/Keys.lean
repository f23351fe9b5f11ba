import Verif.Model.Base
/-!
# cards keys: making the pair of keys

The states the files go through, so that a process killed in between is covered. Files are named by the path the program uses; `keypath/.private.key` and
`./.PKEY` have different last components, so they are different files (unless there are symbolic links).
-/
namespace Cards

/-- A file: content and permissions. -/
structure KeyFile where
  content : Str
  mode : Nat
deriving DecidableEq, Repr

/-- The files by path. -/
abbrev KeyFs := List (Str × KeyFile)

/-- What the environment decides: the pair of keys in PEM form when the library makes one, the umask, whether each file can be opened, each key be encoded, how much of
each key reaches the file when it is closed (`none`: all), and whether `chmod` works. -/
structure KeyEnv where
  pair : Option (Str × Str)
  umask : Nat
  openPriv : Bool
  pemPriv : Bool
  flushPriv : Option Nat
  chmodOk : Bool
  openPub : Bool
  pemPub : Bool
  flushPub : Option Nat

inductive KeyErr where
  | noPath | generate | openFile (f : Str) | savePriv | chmod | savePub
deriving DecidableEq, Repr

/-- `PRIVATEKEY` /repo/src/define.h:34. -/
def privateName : Str := "/.private.key".toList

/-- `keyfile = "."; keyfile += PUBLICKEY`, /repo/src/pkgrepo.cxx:110-111, define.h:35. -/
def publicPath : Str := "./.PKEY".toList

/-- `fopen(path, "w")`: the file is emptied and keeps its permissions, or is made with what the umask leaves of 0666. -/
def openTrunc (umask : Nat) (path : Str) (w : KeyFs) : KeyFs :=
  match mget w path with
  | some f => mset path { f with content := [] } w
  | none => mset path { content := [], mode := 0o666 &&& (0o777 ^^^ umask) } w

/-- `PEM_write_...` into the buffer of the stream, then `fclose`, whose result nobody looks at: the file gets what could be written. -/
def closeFile (text : Str) (reached : Option Nat) (path : Str) (w : KeyFs) : KeyFs :=
  match mget w path with
  | some f => mset path { f with content := match reached with | none => text | some k => text.take k } w
  | none => w

/-- `chmod(path, mode)`. -/
def chmodFile (path : Str) (mode : Nat) (w : KeyFs) : KeyFs :=
  match mget w path with
  | some f => mset path { f with mode := mode } w
  | none => w

/-- The second half of `generateKeys`, /repo/src/pkgrepo.cxx:110-127: the public key. Returns the states gone through after `w` and the error. -/
def writePublic (E : KeyEnv) (pub : Str) (w : KeyFs) : List KeyFs × Option KeyErr :=
  if !E.openPub then ([], some (.openFile publicPath))
  else
    let w1 := openTrunc E.umask publicPath w
    if !E.pemPub then ([w1], some .savePub)
    else ([w1, closeFile pub E.flushPub publicPath w1], none)

/-- `pkgrepo::generateKeys` /repo/src/pkgrepo.cxx:62-128: the states of the files, the first is the one before, and the error. -/
def makeKeys (E : KeyEnv) (keypath : Str) (w : KeyFs) : List KeyFs × Option KeyErr :=
  let priv := keypath ++ privateName
  if keypath = [] then ([w], some .noPath)
  else match E.pair with
  | none => ([w], some .generate)
  | some (sk, pk) =>
    if !E.openPriv then ([w], some (.openFile priv))
    else
      let w1 := openTrunc E.umask priv w
      if !E.pemPriv then ([w, w1], some .savePriv)
      else
        let w2 := closeFile sk E.flushPriv priv w1
        if !E.chmodOk then ([w, w1, w2], some .chmod)
        else
          let w3 := chmodFile priv 0o600 w2
          let r := writePublic E pk w3
          ([w, w1, w2, w3] ++ r.1, r.2)

/-- The files when the command has ended. -/
def keysEnd (E : KeyEnv) (keypath : Str) (w : KeyFs) : KeyFs := (makeKeys E keypath w).1.getLastD w

end Cards
