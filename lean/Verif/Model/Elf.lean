import Verif.Model.RepoCmds
/-!
# Runtime libraries: reading ELF files, `pkginfo --runtimedepfiles`, `pkginfo -R`

On a 64 bit little endian machine, where `unsigned long` has eight bytes.
-/
namespace Cards

/-- The content of a file. -/
abbrev Bytes := List UInt8

/-- A little endian number. -/
def le : Bytes → Nat
  | [] => 0
  | b :: bs => b.toNat + 256 * le bs

/-- The number in the `n` bytes at `off`. -/
def Bytes.num (f : Bytes) (off n : Nat) : Nat := le ((f.drop off).take n)

/-- The text at `off`, up to the next zero byte or the end. -/
def Bytes.text (f : Bytes) (off : Nat) : Str := ((f.drop off).takeWhile (fun b => b ≠ 0)).map (fun b => Char.ofNat b.toNat)

/-- `getDatas` /repo/src/file_utils.cxx:9-39 with a new buffer; `none`: a null pointer. An offset above `LONG_MAX` is negative for `fseek`. -/
def getDatas (f : Bytes) (off size nmemb : Nat) : Option Bytes :=
  if size = 0 ∨ nmemb = 0 ∨ 2 ^ 63 ≤ off ∨ f.length < off + size * nmemb then none else some ((f.drop off).take (size * nmemb))

/-- A number read from a buffer; `none`: outside of it. Simplification: the zero byte `getDatas` adds behind the buffer is not part of it. -/
def peek (buf : Bytes) (off n : Nat) : Option Nat := if off + n ≤ buf.length then some (buf.num off n) else none

/-- The result of the search for the string table. -/
inductive StrTab where
  | found (i off : Nat)
  | absent
  | outside
deriving DecidableEq, Repr

/-- The first section of type SHT_STRTAB, /repo/src/runtime_dependencies_utils.cxx:139-163 and 261-281; `Elf_Shdr_32` and `Elf_Shdr_64` (/repo/src/elf.h:60-86)
are the same on this machine: 64 bytes, the type at 4, the offset at 24. The second argument counts the sections left. -/
def findStrTab (sh : Bytes) : Nat → Nat → StrTab
  | _, 0 => .absent
  | i, k + 1 =>
    match peek sh (64 * i + 4) 4 with
    | none => .outside
    | some t =>
      if t = 3 then (match peek sh (64 * i + 24) 8 with | none => .outside | some o => .found i o)
      else findStrTab sh (i + 1) k

/-- Offset and size of the last PT_DYNAMIC segment, /repo/src/runtime_dependencies_utils.cxx:173-189 and 300-315: `Elf_Phdr_32` and `Elf_Phdr_64` have 56 bytes,
the type at 0, the offset at 8, the size at 32. The outer `none`: reads outside of the buffer. -/
def findDynamic (ph : Bytes) : Nat → Nat → Nat × Nat → Option (Nat × Nat)
  | _, 0, acc => some acc
  | i, k + 1, acc =>
    match peek ph (56 * i) 4 with
    | none => none
    | some t =>
      if t = 2 then (match peek ph (56 * i + 8) 8, peek ph (56 * i + 32) 8 with | some o, some z => findDynamic ph (i + 1) k (o, z) | _, _ => none)
      else findDynamic ph (i + 1) k acc

/-- `name` when the code inserts it: the byte before the end is not a point, /repo/src/runtime_dependencies_utils.cxx:226-229, 353-356. For an empty name that is
the byte before it. The outer `none`: outside of the buffer. -/
def elfName (strs : Bytes) (v : Nat) : Option (Option Str) :=
  if strs.length < v then none
  else
    let s := strs.text v
    match s.getLast? with
    | some c => some (if c = '.' then none else some s)
    | none => match v with
      | 0 => none
      | v + 1 => some (if strs.num v 1 = 46 then none else some s)

/-- The loop over the dynamic section, /repo/src/runtime_dependencies_utils.cxx:215-233 and 338-359: the bound counts bytes as entries, so only DT_NULL (or the end
of the buffer, `none`) ends it in time. `strs = none`: the names are not looked at. -/
def dynLoop (dyn : Bytes) (strs : Option Bytes) : Nat → Nat → Option (List Str)
  | _, 0 => some []
  | i, k + 1 =>
    match peek dyn (16 * i) 8 with
    | none => none
    | some tag =>
      if tag = 0 then some []
      else if tag = 1 ∨ tag = 14 then
        match strs with
        | none => dynLoop dyn strs (i + 1) k
        | some b =>
          match peek dyn (16 * i + 8) 8 with
          | none => none
          | some v =>
            match elfName b v with
            | none => none
            | some x => (dynLoop dyn strs (i + 1) k).map (fun l => x.toList ++ l)
      else dynLoop dyn strs (i + 1) k

/-- The rest of the function once the program headers are found, /repo/src/runtime_dependencies_utils.cxx:190-246 and 316-371; `off` is the offset of the string table. -/
def elfDynamic (f : Bytes) (off : Nat) (d : Nat × Nat) : Option (List Str) :=
  match getDatas f d.1 1 d.2 with
  | none => some []
  | some dyn =>
    if off < 2 ^ 63 ∧ f.length ≤ off then some []
    else
      let strs := getDatas f off 1 (f.length - off)
      dynLoop dyn (if off < f.length - off then strs else none) 0 d.2

/-- The search for the dynamic segment, /repo/src/runtime_dependencies_utils.cxx:164-189 and 290-315. -/
def elfProgram (f : Bytes) (phoff phentsize phnum off : Nat) : Option (List Str) :=
  match getDatas f phoff phentsize phnum with
  | none => some []
  | some ph =>
    match findDynamic ph 0 phnum (0, 0) with
    | none => none
    | some d => elfDynamic f off d

/-- The sections, /repo/src/runtime_dependencies_utils.cxx:118-163 and 249-289. `six4`: not ELFCLASS32. -/
def elfSections (f : Bytes) (six4 : Bool) (phoff shoff endOff : Nat) : Option (List Str) :=
  let phentsize := f.num (endOff + 6) 2
  let phnum := f.num (endOff + 8) 2
  let shentsize := f.num (endOff + 10) 2
  let shnum := f.num (endOff + 12) 2
  if shnum = 0 then some []
  else match getDatas f shoff shentsize shnum with
    | none => some []
    | some sh =>
      match findStrTab sh 0 shnum with
      | .outside => none
      | .absent => if six4 ∧ shnum = 1 then some [] else elfProgram f phoff phentsize phnum 0
      | .found i off =>
        if i = shnum - 1 then some []
        else if six4 ∧ off = shnum - 1 then some []
        else elfProgram f phoff phentsize phnum off

/-- `getRuntimeLibrariesList` /repo/src/runtime_dependencies_utils.cxx:49-372 on the content of a file that can be opened: the names inserted into the set. `none`:
undefined behaviour (the code reads outside of a buffer, or from a stream just closed). The file is shorter than 2^63 bytes. -/
def elfLibs (f : Bytes) : Option (List Str) :=
  if f.length < 24 then some []
  else if f.take 4 ≠ [127, 69, 76, 70] then some []
  else if f.num 4 1 = 1 then
    if f.length < 36 then none
    else if f.length < 52 then some []
    else elfSections f false (f.num 28 4) (f.num 32 4) 36
  else
    if f.length < 48 then none
    else if f.length < 64 then some []
    else elfSections f true (f.num 32 8) (f.num 40 8) 48

/-- `librariesList` for a list of files (`none`: cannot be opened, or is empty), /repo/src/pkginfo.cxx:274-277, 311-314. -/
def librariesList : List (Option Bytes) → Option (List Str)
  | [] => some []
  | none :: fs => librariesList fs
  | some f :: fs =>
    match elfLibs f, librariesList fs with
    | some a, some b => some (a ++ b)
    | _, _ => none

/-- The packages with a file whose name contains `/lib`, for one of the libraries, /repo/src/pkginfo.cxx:281-299 and 318-334: `found` is set behind the `break`, so
every package is looked at. -/
def libOwners (db : Db) (libs : List Str) : List Str :=
  (keys db).filter (fun n => match mget db n with
    | some i => libs.any (fun l => i.files.any (fun k => Str.has k ('/' :: l)))
    | none => false)

/-- The line for a package, `j.first + ultos(j.second.build())`, /repo/src/pkginfo.cxx:286; `none`: the number does not fit into the buffer of `ultos`. -/
def depLine (junk : Nat × Nat) (db : Db) (n : Str) : Option Str :=
  match mget db n with
  | none => none
  | some i => match ultos (i.inst junk).build with
    | .ok s => some (n ++ s)
    | .overflow => none

/-- `pkginfo --runtimedepfiles DIR`, /repo/src/pkginfo.cxx:267-307: the lines pkgmk takes as run time dependencies; `files` are the files below the directory.
Not modelled: the message without a line end that `getDatas` prints for a truncated ELF file, which pkgmk drops together with the first line. -/
def runtimeDepFiles (junk : Nat × Nat) (db : Db) (files : List (Option Bytes)) : Option (List Str) :=
  match librariesList files with
  | none => none
  | some libs =>
    if (libOwners db libs).all (fun n => (depLine junk db n).isSome) then some (sofList ((libOwners db libs).filterMap (depLine junk db))) else none

/-- `pkginfo -R NAME`, /repo/src/pkginfo.cxx:308-345: the names printed; `content` gives the installed files. The record is looked up under the argument itself. -/
def runtimeDeps (db : Db) (content : Str → Option Bytes) (arg : Str) : Option (List Str) :=
  match mget (loadAlias db) arg with
  | none => some []
  | some _ =>
    (librariesList (((mget db arg).map (·.files)).getD [] |>.map (fun f => content ('/' :: f)))).map (fun libs => libOwners db libs)

end Cards
