import Verif.Props.Whole
import Verif.Props.RoundTrip
import Verif.Props.Halt
import Verif.Props.Lock
import Verif.Props.TransFs
import Verif.Props.Numbers
import Verif.Props.RemoveFile
import Verif.Props.Query
import Verif.Props.Report
import Verif.Props.SearchExact
import Verif.Props.WebDocs
import Verif.Props.WebPkgs
import Verif.Props.Sync
import Verif.Props.LibCheck
import Verif.Props.Archive
import Verif.Props.Trigger
import Verif.Props.Ports
/-!
# C166–C181: statements that hold as a whole, put together from the theorems about the single commands
-/
namespace Cards.Props
open Cards Cards.Spec

/-- **C166.** Whatever programs run on one root, however they are scheduled and killed: whenever a process holds the exclusive lock no other process holds any; when its
holder is killed the next process that asks gets it; a pkgrm that does not get it fails and changes nothing, and a pkgadd that does not get a lock it needs does not succeed. -/
theorem C166_lock :
    (∀ (s : Sys) (procs : Nat → Prog) (es : List Move) (i j : Nat) (x : Bool), (i, true) ∈ ((Machine.mk s [] procs).runs es).holders →
      (j, x) ∈ ((Machine.mk s [] procs).runs es).holders → j = i ∧ x = true) ∧
    (∀ (s : Sys) (procs : Nat → Prog) (es : List Move) (i j : Nat) (x : Bool) (k : Prog), (i, true) ∈ ((Machine.mk s [] procs).runs es).holders → j ≠ i →
      ((Machine.mk s [] procs).runs es).procs j = .acquire x k →
      (((Machine.mk s [] procs).runs es).runs [.kill i, .run j]).holders = [(j, x)] ∧ (((Machine.mk s [] procs).runs es).runs [.kill i, .run j]).procs j = k) ∧
    (∀ sc name s, pkgrm true sc name s = (s, some .locked)) ∧
    (∀ (env : Env) rules (opts : Opts) a (s : Sys), WF s.disk → (env.lockInstall = false ∨ opts.upgrade = true ∧ env.lockUpgrade = false) → (pkgadd env rules opts a s).2 ≠ none) := by
  refine ⟨fun s procs es i j x => C14_mutual_exclusion s procs es i j x, fun s procs es i j x k => C14_available_after_crash s procs es i j x k, fun sc name s => C14_rm_locked sc name s, ?_⟩
  intro env rules opts a s hw h hok
  obtain ⟨h1, h2, _⟩ := C14_add_locked env rules opts a s hw hok
  rcases h with h | ⟨hu, h⟩
  · rw [h] at h1
    cases h1
  · rw [h2 hu] at h
    cases h

example : ((Machine.mk xSys [] (fun i => if i < 2 then infoProg 1 else .ret none)).runs [.run 0]).holders = [(0, false)] ∧
    (pkgadd { xEnv with lockInstall := false } [] xOpts (xArch "new" ["usr/", "usr/new"]) xSys).2 = some .locked := ⟨by decide, by decide⟩

/-- **C167.** A regular file that the last matching UPGRADE rule protects keeps its content and permissions in every upgrade to a version that ships it: however the upgrade ends, and
at every moment at which it can be killed. -/
theorem C167_protected (env : Env) (rules : List Rule) (opts : Opts) (a : Archive) (s : Sys) (hw : WF s.disk) (hg : GoodArchive a) (hup : opts.upgrade = true) (f : Str)
    (hship : Ships env.rx rules a f) (hprot : Protected env.rx rules f) (hd : ¬ IsDirName f) (c : Str) (m : Nat) (hfile : s.fs.get (comps f) = some (.file c m))
    (haway : AwayFromRejected (comps f)) (hsc : ScriptsLeave a (comps f)) (hspell : ∀ g, Owns s.disk a.name g → comps g = comps f → g = f ∨ IsDirName g) :
    (pkgadd env rules opts a s).1.fs.get (comps f) = some (.file c m) ∧ ∀ r, AddHalt env rules opts a s r → r.fs.get (comps f) = some (.file c m) :=
  ⟨C06_protected_untouched env rules opts a s hw hg hup f hship hprot hd c m hfile haway hsc hspell,
    fun r h => C77_protected env rules opts a s hw hg hup f hship hprot hd c m hfile haway hsc hspell r h⟩

example : GoodArchive xFoo2 ∧ xUp.upgrade = true ∧ Ships xEnv.rx xRules xFoo2 "etc/foo.conf".toList ∧ Protected xEnv.rx xRules "etc/foo.conf".toList ∧
    xSys.fs.get (comps "etc/foo.conf".toList) = some (.file "x".toList 0o600) ∧ AddHalt xEnv xRules xUp xFoo2 xSys xHalf := by
  refine ⟨xFoo2_good, rfl, ⟨by decide, by decide, ?_⟩, ⟨_, ⟨[], [], rfl, rfl, by decide, by simp⟩, rfl⟩, by decide, xHalf_halt⟩
  rw [← installFile_iff]
  decide

/-- **C168.** Install a package whose scripts do nothing, without -u and --force, and remove it: the removal succeeds, the database is the one before, every regular file is there with its content and
permissions (unless the archive had a directory in its place), and where nothing was there is nothing. -/
theorem C168_undone {env : Env} {rules : List Rule} {opts : Opts} {a : Archive} {s : Sys} (h : FreshInstall env rules opts a s) (hwh : Whole env.rx rules a) (htree : IsTree s.fs) (hall : AllThere s)
    {sc : RmScripts} (hq : NoSideEffects sc) :
    (pkgrm false sc a.name (pkgadd env rules opts a s).1).2 = none ∧
    (∀ p, p ∈ (pkgrm false sc a.name (pkgadd env rules opts a s).1).1.disk ↔ p ∈ s.disk) ∧
    (∀ k c m, s.fs.get k = some (.file c m) → (∀ g, Ships env.rx rules a g → IsDirName g → comps g ≠ k) →
      (pkgrm false sc a.name (pkgadd env rules opts a s).1).1.fs.get k = some (.file c m)) ∧
    (∀ k, k ≠ [] → s.fs.get k = none → (pkgrm false sc a.name (pkgadd env rules opts a s).1).1.fs.get k = none) :=
  ⟨(C79_database h hq).1, (C79_database h hq).2, fun k c m hf hc => C79_files_kept h hwh hq k c m hf hc, fun k hk hn => C79_nothing_left h hwh htree hall hq k hk hn⟩

example : FreshInstall xEnv [] xOpts xTrip xSys ∧ Whole xEnv.rx [] xTrip ∧ NoSideEffects noScripts ∧
    (pkgadd xEnv [] xOpts xTrip xSys).1.fs.get ["usr".toList, "new".toList] = some (.file "usr/new".toList 0o644) :=
  ⟨xTrip_fresh, xTrip_whole, fun _ => ⟨rfl, rfl⟩, by decide +kernel⟩

/-- **C169.** The INSTALL rules are kept: after a successful pkgadd the recorded files are exactly those of the archive whose last matching INSTALL rule does not say NO; and however pkgadd ends, the place of a file
that is excluded is as it was, if the old version did not list it. -/
theorem C169_install_rules (env : Env) (rules : List Rule) (opts : Opts) (a : Archive) (s : Sys) (hw : WF s.disk) :
    ((pkgadd env rules opts a s).2 = none → ∀ f, Owns (pkgadd env rules opts a s).1.disk a.name f ↔
      f ∈ a.mtree ∧ f.head? ≠ some '.' ∧ ¬ ∃ r, LastRule env.rx rules .INSTALL f r ∧ r.action = false) ∧
    (GoodArchive a → ∀ f ∈ a.mtree, f.head? ≠ some '.' → Excluded env.rx rules f → ¬ IsDirName f → AwayFromRejected (comps f) → ScriptsLeave a (comps f) →
      (∀ e ∈ a.entries, ¬ Inside (comps e.path) (comps f)) → (opts.upgrade = true → ∀ g, Owns s.disk a.name g → comps g ≠ comps f) →
      (pkgadd env rules opts a s).1.fs.get (comps f) = s.fs.get (comps f)) :=
  ⟨fun h f => C07_recorded_iff_not_excluded env rules opts a s hw h f,
    fun hg f hm hdot hex _ haway hsc hin hold => C07_excluded_untouched env rules opts a s hw hg f hm hdot hex (fun e he hi => absurd hi (hin e he)) haway hsc hold⟩

example : GoodArchive xFoo2 ∧ "etc/foo.new".toList ∈ xFoo2.mtree ∧ Excluded xEnv.rx [⟨.INSTALL, "etc/foo.new".toList, false⟩] "etc/foo.new".toList ∧
    (pkgadd xEnv [⟨.INSTALL, "etc/foo.new".toList, false⟩] xUp xFoo2 xSys).2 = none := by
  refine ⟨xFoo2_good, by decide, ?_, by decide +kernel⟩
  rw [← installFile_iff]
  decide

/-- **C170.** For every tree of ports the levels are found; a port from which no cycle can be reached is above everything it needs and no higher than that requires, the others are at level 0; `cards level` prints every
port once, level by level; and the build list of a collection has exactly its ports, each once, none before a port it needs unless a cycle can be reached from it. -/
theorem C170_levels (T : Ports) (h : FreshPorts T) :
    (∃ T', loadPorts T = some T' ∧ keys T' = keys T ∧
      (∀ a ∈ keys T, CycleFree T a → (∀ b, Needs T a b → portLevel T' b < portLevel T' a) ∧ (portLevel T' a = 0 ∨ ∃ b, Needs T a b ∧ portLevel T' b + 1 = portLevel T' a)) ∧
      (∀ a ∈ keys T, ¬ CycleFree T a → portLevel T' a = 0)) ∧
    (∃ T' lines, loadPorts T = some T' ∧ levelPrint T' (T'.length + 1) 0 = some lines ∧ (∀ l c n, (l, c, n) ∈ lines ↔ ∃ p, (n, p) ∈ T' ∧ p.collection = c ∧ p.level = l) ∧
      (lines.map (fun x => x.2.2)).Nodup ∧ lines.Pairwise (fun x y => x.1 ≤ y.1)) ∧
    (∀ coll, ∃ T' L, loadPorts T = some T' ∧ portsOfCollection T' coll [] = some L ∧ (∀ n, n ∈ L ↔ ∃ p, (n, p) ∈ T ∧ p.collection = coll) ∧ L.Nodup ∧
      L.Pairwise (fun x y => CycleFree T x → ¬ Needs T x y)) :=
  ⟨C19_levels T h, C19_level_print T h, fun coll => C19_collection_order T h coll⟩

example : ("app".toList ∈ keys sampleTree) ∧ ((loadPorts sampleTree).bind (fun T => dependsPrint T "lib".toList) = some [(0, "gcc".toList), (1, "lib".toList)]) := by
  decide +kernel

/-- **C171.** The text of a digest or signature determines its bytes: it can be read back, in small letters and in capitals, has two characters for each byte, and two digests are found equal exactly when their bytes are. -/
theorem C171_hex (a b : List Nat) (ha : ∀ x ∈ a, x < 256) (hb : ∀ x ∈ b, x < 256) :
    hexDecode (hexEncode a) = .ok a ∧ hexDecode ((hexEncode a).map Char.toUpper) = .ok a ∧ (hexEncode a).length = 2 * a.length ∧ (hashEq (hexEncode a) (hexEncode b) = true ↔ a = b) :=
  ⟨C24_roundtrip a ha, C24_capitals a ha, (C24_encode_injective a a ha ha rfl).2, C24_hash_compare a b ha hb⟩

example : hexEncode [0, 255, 16] = "00ff10".toList := by decide

/-- **C172.** Removing a file below a base directory: everything that disappears is the file or a directory above it strictly below the base, nothing else changes, a directory disappears only when it is empty; the file is
gone; and no empty directory is left between the base and a file that was deleted. -/
theorem C172_remove_file (fs : Fs) (b m : Str) (hb : b.getLast? ≠ some '/') (hm : comps m ≠ []) :
    (∀ k, (removeFile (baseText b) fs (b ++ '/' :: m)).get k ≠ fs.get k →
      (removeFile (baseText b) fs (b ++ '/' :: m)).get k = none ∧ Inside k (comps b) ∧ k <+: comps (b ++ '/' :: m) ∧
      ((∃ d, fs.get k = some (.dir d)) → ∀ x, Inside x k → (removeFile (baseText b) fs (b ++ '/' :: m)).get x = none)) ∧
    ((∃ c d, fs.get (comps (b ++ '/' :: m)) = some (.file c d)) → m.getLast? ≠ some '/' → (removeFile (baseText b) fs (b ++ '/' :: m)).get (comps (b ++ '/' :: m)) = none) ∧
    (Tree fs → (fs.remove (b ++ '/' :: m)).2 = true → ∀ k, Inside k (comps b) → Inside (comps (b ++ '/' :: m)) k → k ≠ [] →
      ((removeFile (baseText b) fs (b ++ '/' :: m)).get k).isSome → ∃ x, Inside x k ∧ ((removeFile (baseText b) fs (b ++ '/' :: m)).get x).isSome) :=
  ⟨fun k hk => C36_below fs b m hb hm k hk, fun ⟨c, d, h⟩ h' => C36_file_removed fs b m hb hm ⟨c, d, h, h'⟩,
    fun ht hdel k hin hpre hne hs => C36_no_empty_parent fs ht b m hb hm hdel k hin hpre hne hs⟩

example : ("/var/pkg/r".toList : Str).getLast? ≠ some '/' ∧ comps "etc/a".toList ≠ [] ∧ "/var/pkg/r".toList ++ '/' :: "etc/a".toList = "/var/pkg/r/etc/a".toList ∧
    (rfTree.remove "/var/pkg/r/etc/a".toList).2 = true := by decide

/-- **C173.** `pkginfo -i` prints one line for each installed package, in the order of the names, with what its record states and the mark of automatically installed packages; `cards list` one line for each package installed by hand
and none for the others; `pkginfo -n` the number of the installed packages. -/
theorem C173_listed (junk : Nat × Nat) (db : Db) (h1 : ∀ p ∈ db, OneField p.2 'V' ∧ OneField p.2 'r' ∧ OneField p.2 'c') :
    List.Forall₂ (fun p line => ∀ c v r, r < 65536 → 'c' :: c ∈ p.2.md → 'V' :: v ∈ p.2.md → 'r' :: dec r ∈ p.2.md → line = listLine (decide ("d1".toList ∈ p.2.md)) c p.1 v r) db (pkginfoInstalled junk db) ∧
    List.Forall₂ (fun p line => ∀ c v r, r < 65536 → 'c' :: c ∈ p.2.md → 'V' :: v ∈ p.2.md → 'r' :: dec r ∈ p.2.md → line = plainLine c p.1 v r)
      (db.filter (fun p => decide ("d1".toList ∉ p.2.md))) (cardsList junk db) ∧
    pkginfoNumber db = dec db.length := by
  refine ⟨C54_installed junk db h1, C54_by_hand junk db h1, ?_⟩
  rw [C54_number junk db, ← (C54_installed junk db h1).length_eq]

example : pkginfoInstalled (0, 0) qDb = ["AUTO: (base) vim 9-2".toList, " MAN: (cli) zed 1-1".toList] ∧ cardsList (0, 0) qDb = ["(cli) zed 1-1".toList] ∧
    pkginfoNumber qDb = "2".toList := by decide +kernel

/-- **C174.** The report of `cards diff` and `cards upgrade`: it says that the system is up to date exactly when every installed package is in the repository and none is newer there; otherwise it gives the number of the packages that are out of date, with
a row for each, the numbers and names of those to be rebuilt, removed and unmaintained, and the number of all packages. -/
theorem C174_report (junk : Nat) (details : Bool) (st : StatVfs) {db : InstDb} {repo : List (Str × RepoPkg)} (hs : MSorted db) (hr : ShortReleases db repo)
    (cls : Str × Inst → UpgStatus) (hc : ∀ p ∈ db, Standing db repo p.1 p.2 (cls p)) :
    (showInfo junk details st db repo = ["Your system is up to date.".toList] ↔ ∀ p ∈ db, cls p = .ok) ∧
    ((∃ p ∈ db, cls p ≠ .ok) →
      (∃ rows, sectionOf "Out of Date Packages (different version): ".toList (showInfo junk details st db repo) = some (dec (db.countP (fun p => decide (cls p = .outOfDate))), rows)) ∧
      ShowsNames details (sectionOf "Rebuild Packages (newer build date):      ".toList (showInfo junk details st db repo)) (db.filter (fun p => decide (cls p = .newBuild))) ∧
      ShowsNames details (sectionOf "Obsoletes Packages (will be removed):     ".toList (showInfo junk details st db repo)) (db.filter (fun p => decide (cls p = .obsolete))) ∧
      ShowsNames details (sectionOf "Unmaintained Packages (should be removed):".toList (showInfo junk details st db repo)) (db.filter (fun p => decide (cls p = .unmaintained))) ∧
      ∃ rows, sectionOf "Number of Packages:                       ".toList (showInfo junk details st db repo) = some (dec db.length, rows)) := by
  refine ⟨C85_up_to_date junk details st hs hr cls hc, fun hbad => ?_⟩
  obtain ⟨rows, h1, _⟩ := C85_outdated junk details st hs hr cls hc hbad
  obtain ⟨n1, n2, n3, _⟩ := C85_names junk details st hs hr cls hc hbad
  exact ⟨⟨rows, h1⟩, n1, n2, n3, ⟨_, C85_totals junk details st hs hr cls hc hbad⟩⟩

example : ∃ cls : Str × Inst → UpgStatus, (∀ p ∈ uDb, Standing uDb uRepo p.1 p.2 (cls p)) ∧ cls ("bash".toList, uInst "5" 10 false) = .outOfDate :=
  ⟨fun p => (dealOf uDb uRepo p.1 p.2).status, fun _ hp => standing_dealOf (by unfold ShortReleases; decide +kernel) hp, by decide +kernel⟩

open Classical in
/-- **C175.** `cards search --names WORD` prints a row for each package file of the collections, in their order, whose name contains the word in small letters, and no others. -/
theorem C175_names (css : List (List Rec)) (kw : Str) (hr : ∀ rs ∈ css, ∀ r ∈ rs, Rec.Complete r) :
    List.Forall₂ SRow.For (searchCmd true kw (css.map writeRepo)) (css.flatten.filter (fun r => decide (∃ n, r.Has 'N' n ∧ kw.map Char.toLower <:+: n))) :=
  C56_names_exact css kw hr

example : Rec.Complete sXorg ∧ Rec.Complete sBar := ⟨sXorg_complete, sBar_complete⟩

/-- **C176.** The site shows only its own documents: a request for a page gives the document of that name with its date and its board, or says that there is none, whatever the name; a search in the documents shows exactly the
lines that contain the text. -/
theorem C176_pages (site : Site) (files : List (Str × Str × List Str)) (hs : site.content = getContent files) (q : Str) :
    (∀ n board date text file, Asks q "page=".toList n → Silent q "search=".toList → Silent q "searchpkg=".toList → n ≠ "packages".toList →
      (file, date, text) ∈ files → splitKeyValue file '.' = (n, board) → (∀ f ∈ files, (splitKeyValue f.1 '.').1 = n → f = (file, date, text)) →
      webBody site q = searchBox site.french :: lastUpdate date :: tocPage (if site.french then "Sommaire".toList else "Contents".toList) text ++ boardLines site.french board) ∧
    (∀ n, Asks q "page=".toList n → Silent q "search=".toList → Silent q "searchpkg=".toList → n ≠ "packages".toList → (∀ f ∈ files, (splitKeyValue f.1 '.').1 ≠ n) →
      (webBody site q).head? = some ("<h1>".toList ++ n ++ " is not existing yet</h1>".toList)) ∧
    (∀ w, Asks q "search=".toList w → Silent q "searchpkg=".toList → 3 ≤ w.length → ∃ hits : List (Str × Str),
      (∀ n j, (n, j) ∈ hits ↔ n ≠ "packages".toList ∧ Contains w j ∧ ∃ d, (n, d) ∈ site.content ∧ j ∈ d.text) ∧
      List.Sublist hits (site.content.flatMap (fun d => d.2.text.map (fun j => (d.1, j)))) ∧
      webBody site q = hits.flatMap (fun h => ["<a href=\"?page=".toList ++ h.1 ++ "\">".toList ++ h.1 ++ "</a><br>...<br>".toList, h.2, "</div></pre>...<br><br>".toList])) :=
  ⟨fun n board date text file h1 h2 h3 h4 h5 h6 h7 => C91_request site files hs q n board date text file h1 h2 h3 h4 h5 h6 h7,
    fun n h1 h2 h3 h4 h5 => C91_missing site files hs q n h1 h2 h3 h4 h5, fun w h1 h2 h3 => C91_search site q w h1 h2 h3⟩

example : (webBody ⟨false, getContent [("news.12".toList, "today".toList, ["hello".toList])], [], fun _ => [], []⟩ "page=news".toList)[2]? = some "hello".toList := by
  decide +kernel

/-- **C177.** A search for packages shows a row for each package of the branch whose name or collection contains the text in small letters, or whose description contains it, and no others; with `type=col` those of that collection; the heading tells
the number of the rows; and a row shows the collection, name, version, release and description of its package. -/
theorem C177_packages (site : Site) (q : Str) (hl : 2 ≤ (webArgs q).pkgSearch.length) (hr : ∀ k p, (k, p) ∈ site.packages → p.release < 65536)
    (hn : (rowsOf (webBody site q)).length < 2 ^ 32) :
    (∃ p1 p2, FirstPiece '%' (webArgs q).pkgSearch p1 ∧ FirstPiece '+' p1 p2 ∧
      ∀ l, l ∈ rowsOf (webBody site q) ↔ ∃ k p, (k, p) ∈ site.packages ∧ InBranch (webArgs q).branch (webArgs q).system p ∧ l = webRow site.date p ∧
        (if (webArgs q).type = "col".toList then p.collection = convertToLowerCase p2
         else convertToLowerCase p2 <:+: p.baseName ∨ convertToLowerCase p2 <:+: p.collection ∨ Contains p2 p.description)) ∧
    (∃ l, (webBody site q)[2]? = some l ∧
      ((rowsOf (webBody site q)).length = 0 → l = " <h2>no matching package found</h2>".toList) ∧
      ((rowsOf (webBody site q)).length = 1 → l = " <h2>1 package found</h2>".toList) ∧
      (2 ≤ (rowsOf (webBody site q)).length → l = " <h2>".toList ++ dec (rowsOf (webBody site q)).length ++ " packages founds</h2>".toList)) ∧
    (∀ k p, (k, p) ∈ site.packages →
      ("/tree/".toList ++ p.branch ++ '/' :: p.collection ++ '/' :: p.baseName ++ "\">".toList ++ p.baseName ++ "</a></td>".toList) <:+: webRow site.date p ∧
      ("\">".toList ++ p.version ++ '-' :: dec p.release ++ "</a></td><td>".toList ++ p.description ++ "</td><td>".toList ++ site.date p.build ++ "</td>".toList) <:+ webRow site.date p) :=
  ⟨(C89_exact site q hl).1, C89_count site q hl hn, fun k p hp => (C89_row site.date p (hr k p hp)).2⟩

example : (rowsOf (webBody (xWeb "vim".toList) "searchpkg=EDIT".toList)).length = 1 ∧ 2 ≤ (webArgs "searchpkg=EDIT".toList).pkgSearch.length := by decide +kernel

/-- **C178.** `cards sync` of root succeeds when every transfer does; when no transfer of one of the three files of a collection with an address succeeds, it fails. -/
theorem C178_sync (net : Nat → Str → Transfer) (unz : Str → Option Str) (arch version : Str) (dirs : List DirUrl) (fs : Fs) :
    ((∀ i a, ∃ c, net i a = .complete c) → (cardsSync true net unz arch version dirs fs).2 = true) ∧
    (∀ d ∈ dirs, d.url ≠ [] → ∀ n, n = "/.PKEY".toList ∨ n = ".REPO.zst".toList ∨ n = ".FILES.zst".toList →
      (∀ i, ∃ r, net i (d.address arch version n) = .broken r) → (cardsSync true net unz arch version dirs fs).2 = false) :=
  ⟨fun h => C68_succeeds net unz arch version dirs fs h, fun d hd hu n hn hb => C68_failure_reported net unz arch version dirs fs d hd hu n hn hb⟩

example : (cardsSync true (syServer "k2".toList "Znew".toList "Zfn".toList) syUnz "x".toList "24".toList [syDir] syOld).2 = true ∧ syDir.url ≠ [] := ⟨by decide +kernel, by decide⟩

/-- **C179.** A command that was killed can be repeated: if the database can be read afterwards, running a killed pkgadd again with --force (and -u exactly if the package is recorded) succeeds and the package owns exactly the files
it ships; and a killed pkgrm of a package without scripts had finished, or running it again ends where the first run would have ended. -/
theorem C179_again (s : Sys) (hw : WF s.disk) :
    (∀ (env env' : Env) rules opts (a : Archive) r db, GoodArchive a → AddHalt env rules opts a s r → loadRaw r.raw = some db → (a.md ≠ [] ∧ a.mtree ≠ [] ∧ a.archOk = true ∧ a.name ≠ []) →
      (env'.lockForce = true ∧ env'.lockUpgrade = true ∧ env'.lockInstall = true) → env'.rx = env.rx → (∀ fs, (a.pre fs).2 = true) → (∀ p ∈ s.disk, 'A' :: a.name ∉ p.2.md) →
      ∀ opts' : Opts, opts'.force = true → (opts'.upgrade = true ↔ Installed db a.name) →
        (pkgadd env' rules opts' a ⟨r.fs, db⟩).2 = none ∧ ∀ f, Owns (pkgadd env' rules opts' a ⟨r.fs, db⟩).1.disk a.name f ↔ Ships env.rx rules a f) ∧
    (∀ sc name r db, ((∀ t, sc.pre t = (t, true)) ∧ ∀ t, sc.post t = t) → Installed s.disk name → (∀ f, Owns s.disk name f → PlainName f) → RmHalt sc name s r → loadRaw r.raw = some db →
      (pkgrm false sc name s).2 = none ∧ ((⟨r.fs, db⟩ : Sys) = (pkgrm false sc name s).1 ∨ pkgrm false sc name ⟨r.fs, db⟩ = pkgrm false sc name s)) := by
  refine ⟨?_, fun sc name r db h1 h2 h3 h4 h5 => C77_rm_rerun sc h1 name s hw h2 h3 r h4 db h5⟩
  intro env env' rules opts a r db hg h hdb hmd hlk hrx hpre halias opts' hf hup
  have := C77_rerun env env' rules opts a s hw hg r h db hdb hmd hlk hrx hpre halias opts' hf hup
  exact ⟨this.1, this.2.1⟩

example : AddHalt xEnv xRules xUp xFoo2 xSys xHalf ∧ loadRaw xHalf.raw = some xHalfDb ∧ (∀ p ∈ xSys.disk, 'A' :: xFoo2.name ∉ p.2.md) := ⟨xHalf_halt, by decide, by decide⟩

/-- **C180.** A package pkgadd refuses at once — installed already, not installed for -u, for another machine, damaged — starts no program; and of the programs pkgadd starts, each belongs to the trigger of a file of the package. -/
theorem C180_started (env : Env) (rules : List Rule) (opts : Opts) (root : Str) (there : Str → Bool) (a : Archive) (s : Sys) :
    (precheck opts a (load s opts.asDep) ≠ none → pkgaddRuns env rules opts root there a s = []) ∧
    (OneWord root → (∀ f ∈ a.files, OneWord f) → ∀ r ∈ pkgaddRuns env rules opts root there a s,
      ∃ f ∈ a.files, ∃ ev, postEntry env.rx rules f = some (if ev = .LDCONF then [] else f, ev) ∧ ∃ look, Command root ev f look r ∧ there look = true) :=
  ⟨fun h => C80_refused_early env rules opts root there a s h, fun h1 h2 r hr => C80_only_listed env rules opts root h1 there a s h2 r hr⟩

example : (∀ f ∈ xTrigArch.files, OneWord f) ∧ pkgaddRuns xEnv xTrigRules xOpts "/".toList xThere xTrigArch xSys ≠ [] ∧
    precheck xOpts (xArch "foo" ["etc/"]) (load xSys false) ≠ none := by
  refine ⟨?_, by decide +kernel, by decide +kernel⟩
  unfold OneWord
  decide +kernel

/-- **C181.** After a successful `cards install` a package it handled carries the mark of automatically installed packages exactly if it was only pulled in as a dependency, or had the mark before and was handled once. -/
theorem C181_marks (E : InstEnv) (opts : Opts) (args : List Str) (s : Sys) (sess : RepoSess) (r : InstSt) (hw : WF s.disk)
    (h : cardsInstall E opts args s sess = (r, none)) (pre post : List (Option Archive × Bool)) (a : Archive) (dep : Bool)
    (ht : LocalFiles E args ++ ListedFiles E r.sess = pre ++ (some a, dep) :: post)
    (hpost : ∀ b d, (some b, d) ∈ post → b.name ≠ a.name) (hmd : "d1".toList ∉ a.md) :
    Marked r.st.disk a.name ↔ dep = true ∨ ((∀ b d, (some b, d) ∈ pre → b.name ≠ a.name) ∧ Marked s.disk a.name) :=
  C51_marks E opts args s sess r hw h pre post a dep ht hpost hmd

end Cards.Props
