import Verif.Model.PkgmkInst
import Verif.Props.PkgmkCheck
import Verif.Props.PkgmkNames
import Verif.Props.TransFs
/-!
# C160–C163: what `pkgmk` installs, cleans away and writes down
-/
namespace Cards.Props
open Cards Cards.Spec

/-! ## Installing -/

/-- Without --force, whatever the outcome, the records of the other packages are what they were. -/
theorem pkgadd_others {env : Env} {rules : List Rule} {opts : Opts} {a : Archive} {s : Sys} (hw : WF s.disk) (hf : opts.force = false) {n : Str} (hn : n ≠ a.name) :
    mget (pkgadd env rules opts a s).1.disk n = mget s.disk n := by
  obtain ⟨_, h2, h3⟩ := pkgadd_disk env rules opts a s hw
  have hdrop : ∀ x : Option Info, x.map (dropInfo []) = x := fun x => by cases x <;> rfl
  by_cases hc : conflicts (stPre opts a s) a.name (shipped env rules a) = []
  · cases he : (pkgadd env rules opts a s).2 with
    | none =>
      obtain ⟨_, g, _⟩ := h2 he
      rw [g n hn, hc, hdrop]
    | some e =>
      rcases h3 (by simp [he]) n with h | h | ⟨h, _⟩
      · exact h
      · rw [h, hc, hdrop]
      · exact absurd h hn
  · have : (pkgadd env rules opts a s).1.disk = s.disk := by
      simp only [pkgadd, runAdd_eq]
      cases hp : precheck opts a (load s opts.asDep) with
      | some e => rfl
      | none =>
        simp only
        split
        · rfl
        · split
          · rfl
          · rename_i h2
            exfalso; apply h2
            simp [hf, hc]
    rw [this]

/-- The package of a file. -/
def NameOf (arch : Str → Option MkPkg) (t n : Str) : Prop := ∃ p, arch t = some p ∧ p.arch.name = n

/-- One step of the loop that succeeded. -/
theorem mkInstall_cons {up : Bool} {arch : Str → Option MkPkg} {t : Str} {ts : List Str} {s : Sys} (h : (mkInstall up arch (t :: ts) s).2.2 = 0) :
    ∃ p, arch t = some p ∧ (pkgadd p.env p.rules (mkAddOpts up) p.arch s).2 = none ∧
      (mkInstall up arch ts (pkgadd p.env p.rules (mkAddOpts up) p.arch s).1).2.2 = 0 ∧
      mkInstall up arch (t :: ts) s =
        (t :: (mkInstall up arch ts (pkgadd p.env p.rules (mkAddOpts up) p.arch s).1).1, (mkInstall up arch ts (pkgadd p.env p.rules (mkAddOpts up) p.arch s).1).2) := by
  cases ha : arch t with
  | none => simp [mkInstall, ha] at h
  | some p =>
    cases hp : pkgadd p.env p.rules (mkAddOpts up) p.arch s with
    | mk s' e =>
      cases e with
      | some e => simp [mkInstall, ha, hp] at h
      | none =>
        refine ⟨p, rfl, by simp [hp], ?_, ?_⟩
        · simpa [mkInstall, ha, hp] using h
        · simp [mkInstall, ha, hp]

theorem installed_congr {d d' : Db} {n : Str} (h : mget d n = mget d' n) : Installed d n ↔ Installed d' n := by
  rw [← mget_isSome_installed, ← mget_isSome_installed, h]

theorem owns_congr {d d' : Db} (hw : WF d) (hw' : WF d') {n : Str} (h : mget d n = mget d' n) (f : Str) : Owns d n f ↔ Owns d' n f := by
  unfold Owns
  constructor
  · rintro ⟨i, hi, hf⟩
    exact ⟨i, mget_some_mem (h ▸ mem_mget_of_sorted hw.1 hi), hf⟩
  · rintro ⟨i, hi, hf⟩
    exact ⟨i, mget_some_mem (h.symm ▸ mem_mget_of_sorted hw'.1 hi), hf⟩

/-- What a successful loop has done, with and without `-u`. -/
theorem mkInstall_ok (up : Bool) (arch : Str → Option MkPkg) : ∀ (ts : List Str) (s : Sys), WF s.disk → (mkInstall up arch ts s).2.2 = 0 →
    (mkInstall up arch ts s).1 = ts ∧ WF (mkInstall up arch ts s).2.1.disk ∧
    (∀ t ∈ ts, ∃ p, arch t = some p ∧ Installed (mkInstall up arch ts s).2.1.disk p.arch.name) ∧
    (∀ pre t post p, ts = pre ++ t :: post → arch t = some p → (∀ t' ∈ post, ¬ NameOf arch t' p.arch.name) →
      ∀ f, Owns (mkInstall up arch ts s).2.1.disk p.arch.name f ↔ Ships p.env.rx p.rules p.arch f) ∧
    (∀ n, (∀ t ∈ ts, ¬ NameOf arch t n) → mget (mkInstall up arch ts s).2.1.disk n = mget s.disk n) ∧
    (up = true → ∀ t ∈ ts, ∀ n, NameOf arch t n → Installed s.disk n) ∧
    (up = false → (∀ t ∈ ts, ∀ n, NameOf arch t n → ¬ Installed s.disk n) ∧ ∀ pre t post n, ts = pre ++ t :: post → NameOf arch t n → ∀ t' ∈ post, ¬ NameOf arch t' n)
  | [], s, hw, _ => by
    refine ⟨rfl, hw, by simp, ?_, fun _ _ => rfl, by simp, fun _ => ⟨by simp, ?_⟩⟩
    · intro pre t post p h
      simp at h
    · intro pre t post n h
      simp at h
  | t :: ts, s, hw, h => by
    obtain ⟨p, ha, hp, hr, he⟩ := mkInstall_cons h
    have hd := pkgadd_disk p.env p.rules (mkAddOpts up) p.arch s hw
    have hw1 : WF (pkgadd p.env p.rules (mkAddOpts up) p.arch s).1.disk := hd.1
    obtain ⟨_, _, dep, hrec, hinst, hupg⟩ := hd.2.1 hp
    have hex := C08_record_exact p.env p.rules (mkAddOpts up) p.arch s hw hp
    have hoth : ∀ n, n ≠ p.arch.name → mget (pkgadd p.env p.rules (mkAddOpts up) p.arch s).1.disk n = mget s.disk n := fun n hn => pkgadd_others hw rfl hn
    generalize hs1 : (pkgadd p.env p.rules (mkAddOpts up) p.arch s).1 = s1 at *
    obtain ⟨i1, i2, i3, i4, i5, i6, i7⟩ := mkInstall_ok up arch ts s1 hw1 hr
    rw [he]
    have hname : ∀ n, NameOf arch t n → n = p.arch.name := by
      rintro n ⟨q, hq, rfl⟩
      rw [ha] at hq
      cases hq
      rfl
    refine ⟨by rw [i1], i2, ?_, ?_, ?_, ?_, ?_⟩
    · intro t' ht'
      rcases List.mem_cons.mp ht' with rfl | ht'
      · refine ⟨p, ha, ?_⟩
        by_cases hx : ∃ t' ∈ ts, NameOf arch t' p.arch.name
        · obtain ⟨t2, ht2, q, hq, hqn⟩ := hx
          obtain ⟨q', hq', hi'⟩ := i3 t2 ht2
          rw [hq] at hq'
          cases hq'
          rw [← hqn]
          exact hi'
        · have := i5 p.arch.name (fun t2 ht2 hn => hx ⟨t2, ht2, hn⟩)
          exact (installed_congr this).mpr hex.2.1
      · exact i3 t' ht'
    · intro pre t' post q hts hq hpost f
      cases pre with
      | nil =>
        simp only [List.nil_append, List.cons.injEq] at hts
        obtain ⟨rfl, rfl⟩ := hts
        rw [ha] at hq
        cases hq
        rw [← hex.1 f]
        exact owns_congr i2 hw1 (i5 _ hpost) f
      | cons x pre =>
        simp only [List.cons_append, List.cons.injEq] at hts
        obtain ⟨rfl, hts⟩ := hts
        exact i4 pre t' post q hts hq hpost f
    · intro n hn
      rw [i5 n (fun t' ht' => hn t' (by simp [ht']))]
      exact hoth n (fun e => hn t (by simp) ⟨p, ha, e.symm⟩)
    · intro hu t' ht' n hn
      rcases List.mem_cons.mp ht' with rfl | ht'
      · rw [hname n hn]
        exact keys_iff_installed.mp (hupg hu).2
      · by_cases hnp : n = p.arch.name
        · rw [hnp]
          exact keys_iff_installed.mp (hupg hu).2
        · exact (installed_congr (hoth n hnp)).mp (i6 hu t' ht' n hn)
    · intro hu
      obtain ⟨j1, j2⟩ := i7 hu
      have hnot : ¬ Installed s.disk p.arch.name := fun hi => (hinst hu).2 (keys_iff_installed.mpr hi)
      refine ⟨?_, ?_⟩
      · intro t' ht' n hn
        by_cases hnp : n = p.arch.name
        · rw [hnp]
          exact hnot
        · rcases List.mem_cons.mp ht' with rfl | ht'
          · exact absurd (hname n hn) hnp
          · intro hi
            exact j1 t' ht' n hn ((installed_congr (hoth n hnp)).mpr hi)
      · intro pre t' post n hts hn
        cases pre with
        | nil =>
          simp only [List.nil_append, List.cons.injEq] at hts
          obtain ⟨rfl, rfl⟩ := hts
          intro t2 ht2 hn2
          refine j1 t2 ht2 n hn2 ?_
          rw [hname n hn]
          exact hex.2.1
        | cons x pre =>
          simp only [List.cons_append, List.cons.injEq] at hts
          obtain ⟨rfl, hts⟩ := hts
          exact j2 pre t' post n hts hn

theorem pairwise_names (arch : Str → Option MkPkg) (ts : List Str) (h : ∀ pre t post n, ts = pre ++ t :: post → NameOf arch t n → ∀ t' ∈ post, ¬ NameOf arch t' n) :
    ts.Pairwise (fun t t' => ∀ p p', arch t = some p → arch t' = some p' → p.arch.name ≠ p'.arch.name) := by
  induction ts with
  | nil => exact List.Pairwise.nil
  | cons t ts ih =>
    refine List.Pairwise.cons ?_ (ih fun pre t' post n hts hn => h (t :: pre) t' post n (by rw [hts]; rfl) hn)
    intro t' ht' p p' hp hp' e
    exact h [] t ts p.arch.name rfl ⟨p, hp, rfl⟩ t' ht' ⟨p', hp', e.symm⟩

/-- **C160.** When `pkgmk -i` has installed the packages of a port, every package file of the port in the directory of the packages has been installed, in the order of the directory: its package was not
installed before, it is now, with exactly the files it ships; no two of the files are of one package; every other record is what it was. -/
theorem C160_installed (name : Str) (dir : List Str) (arch : Str → Option MkPkg) (s : Sys) (hw : WF s.disk) (h : (installPackage false name dir arch s).2.2 = 0) :
    (installPackage false name dir arch s).1 = packagesList name dir ∧
    (∀ t ∈ packagesList name dir, ∃ p, arch t = some p ∧ ¬ Installed s.disk p.arch.name ∧ Installed (installPackage false name dir arch s).2.1.disk p.arch.name ∧
      ∀ f, Owns (installPackage false name dir arch s).2.1.disk p.arch.name f ↔ Ships p.env.rx p.rules p.arch f) ∧
    (packagesList name dir).Pairwise (fun t t' => ∀ p p', arch t = some p → arch t' = some p' → p.arch.name ≠ p'.arch.name) ∧
    (∀ n i, (∀ t ∈ packagesList name dir, ∀ p, arch t = some p → p.arch.name ≠ n) → ((n, i) ∈ (installPackage false name dir arch s).2.1.disk ↔ (n, i) ∈ s.disk)) := by
  unfold installPackage at h ⊢
  split at h
  · simp at h
  · generalize packagesList name dir = ts at *
    obtain ⟨i1, i2, i3, i4, i5, _, i7⟩ := mkInstall_ok false arch ts s hw h
    obtain ⟨j1, j2⟩ := i7 rfl
    have hne : ts ≠ [] := by assumption
    simp only [hne, if_false]
    refine ⟨i1, ?_, ?_, ?_⟩
    · intro t ht
      obtain ⟨p, hp, hi⟩ := i3 t ht
      obtain ⟨pre, post, hts⟩ := List.append_of_mem ht
      exact ⟨p, hp, j1 t ht _ ⟨p, hp, rfl⟩, hi, i4 pre t post p hts hp (j2 pre t post _ hts ⟨p, hp, rfl⟩)⟩
    · exact pairwise_names arch ts j2
    · intro n i hn
      have := i5 n (fun t ht hx => by
        obtain ⟨p, hp, e⟩ := hx
        exact hn t ht p hp e)
      rw [← mget_iff_mem i2.1, ← mget_iff_mem hw.1, this]

/-- **C160, otherwise.** With and without `-u`: when it ends with a failure, the status is 9; the files before the one that failed have been installed as if they were all, and the records of all packages
but that of the file that failed are what they were after those. -/
theorem C160_failed (up : Bool) (arch : Str → Option MkPkg) : ∀ (ts : List Str) (s : Sys), WF s.disk → (mkInstall up arch ts s).2.2 ≠ 0 →
    (mkInstall up arch ts s).2.2 = 9 ∧
    ∃ pre t post s1, ts = pre ++ t :: post ∧ (mkInstall up arch ts s).1 = pre ∧ mkInstall up arch pre s = (pre, s1, 0) ∧
      ∀ n, ¬ NameOf arch t n → mget (mkInstall up arch ts s).2.1.disk n = mget s1.disk n
  | [], s, _, h => by simp [mkInstall] at h
  | t :: ts, s, hw, h => by
    cases ha : arch t with
    | none =>
      refine ⟨by simp [mkInstall, ha], [], t, ts, s, rfl, by simp [mkInstall, ha], rfl, fun n _ => by simp [mkInstall, ha]⟩
    | some p =>
      cases hp : pkgadd p.env p.rules (mkAddOpts up) p.arch s with
      | mk s' e =>
        cases e with
        | some e =>
          refine ⟨by simp [mkInstall, ha, hp], [], t, ts, s, rfl, by simp [mkInstall, ha, hp], rfl, fun n hn => ?_⟩
          have := pkgadd_others (env := p.env) (rules := p.rules) (opts := mkAddOpts up) (a := p.arch) hw rfl (n := n) (fun e => hn ⟨p, ha, e.symm⟩)
          rw [hp] at this
          simpa [mkInstall, ha, hp] using this
        | none =>
          have hw' : WF s'.disk := by
            have := (pkgadd_disk p.env p.rules (mkAddOpts up) p.arch s hw).1
            rwa [hp] at this
          have e0 : mkInstall up arch (t :: ts) s = (t :: (mkInstall up arch ts s').1, (mkInstall up arch ts s').2) := by simp [mkInstall, ha, hp]
          rw [e0] at h ⊢
          obtain ⟨h9, pre, t', post, s1, hts, h1, h2, h3⟩ := C160_failed up arch ts s' hw' h
          refine ⟨h9, t :: pre, t', post, s1, by rw [hts]; rfl, by rw [h1], ?_, h3⟩
          simp [mkInstall, ha, hp, h2]

/-- **C160, no package.** With nothing to install the command fails and changes nothing. -/
theorem C160_nothing (up : Bool) (name : Str) (dir : List Str) (arch : Str → Option MkPkg) (s : Sys) (h : packagesList name dir = []) :
    installPackage up name dir arch s = ([], s, 9) := by simp [installPackage, h]

/-- **C161, as far as it holds.** When `pkgmk -u` has succeeded, every package file of the port has been installed, each over an installed version; the files of a package are those of the last file of it in the order
of the directory; every other record is what it was. -/
theorem C161_upgraded_partial (name : Str) (dir : List Str) (arch : Str → Option MkPkg) (s : Sys) (hw : WF s.disk) (h : (installPackage true name dir arch s).2.2 = 0) :
    (∀ t ∈ packagesList name dir, ∃ p, arch t = some p ∧ Installed s.disk p.arch.name ∧ Installed (installPackage true name dir arch s).2.1.disk p.arch.name) ∧
    (∀ pre t post p, packagesList name dir = pre ++ t :: post → arch t = some p → (∀ t' ∈ post, ∀ p', arch t' = some p' → p'.arch.name ≠ p.arch.name) →
      ∀ f, Owns (installPackage true name dir arch s).2.1.disk p.arch.name f ↔ Ships p.env.rx p.rules p.arch f) ∧
    (∀ n i, (∀ t ∈ packagesList name dir, ∀ p, arch t = some p → p.arch.name ≠ n) → ((n, i) ∈ (installPackage true name dir arch s).2.1.disk ↔ (n, i) ∈ s.disk)) := by
  unfold installPackage at h ⊢
  split at h
  · simp at h
  · generalize packagesList name dir = ts at *
    obtain ⟨i1, i2, i3, i4, i5, i6, _⟩ := mkInstall_ok true arch ts s hw h
    have hne : ts ≠ [] := by assumption
    simp only [hne, if_false]
    refine ⟨?_, ?_, ?_⟩
    · intro t ht
      obtain ⟨p, hp, hi⟩ := i3 t ht
      exact ⟨p, hp, i6 rfl t ht _ ⟨p, hp, rfl⟩, hi⟩
    · intro pre t post p hts hp hpost
      exact i4 pre t post p hts hp (fun t' ht' hx => by
        obtain ⟨p', hp', e⟩ := hx
        exact hpost t' ht' p' hp' e)
    · intro n i hn
      have := i5 n (fun t ht hx => by
        obtain ⟨p, hp, e⟩ := hx
        exact hn t ht p hp e)
      rw [← mget_iff_mem i2.1, ← mget_iff_mem hw.1, this]

/-- **C161, a new sub-package.** If a package of the port is not installed — a group that is new in this version, say — `pkgmk -u` fails. -/
theorem C161_new_package_fails (name : Str) (dir : List Str) (arch : Str → Option MkPkg) (s : Sys) (hw : WF s.disk) (t : Str) (ht : t ∈ packagesList name dir) (p : MkPkg) (hp : arch t = some p)
    (hn : ¬ Installed s.disk p.arch.name) : (installPackage true name dir arch s).2.2 = 9 := by
  by_cases h : (installPackage true name dir arch s).2.2 = 0
  · obtain ⟨q, hq, hi, _⟩ := (C161_upgraded_partial name dir arch s hw h).1 t ht
    rw [hp] at hq
    cases hq
    exact absurd hi hn
  · revert h
    unfold installPackage
    split
    · exact fun _ => rfl
    · exact fun h => (C160_failed true arch _ s hw h).1

/-- The packages of the port `foo` for the examples. -/
def mkPkgs (t : Str) : Option MkPkg :=
  if t = "foo.cards-1-1".toList then some ⟨xEnv, [], xArch "foo" ["etc/", "etc/foo.old"]⟩
  else if t = "foo.cards-2-1".toList then some ⟨xEnv, [], xArch "foo" ["etc/", "etc/foo.conf", "etc/foo.new"]⟩
  else if t = "foo.devel.cards-2-1".toList then some ⟨xEnv, [], xArch "foo.devel" ["etc/", "etc/foo.h"]⟩
  else if t = "new.cards-2-1".toList then some ⟨xEnv, [], xArch "new" ["etc/", "etc/new"]⟩
  else if t = "new.devel.cards-2-1".toList then some ⟨xEnv, [], xArch "new.devel" ["etc/", "etc/new.h"]⟩
  else none

/-- The port `new` with its group is installed. -/
example : (installPackage false "new".toList ["foo.cards-1-1".toList, "new.devel.cards-2-1".toList, "new.cards-2-1".toList] mkPkgs xSys).2.2 = 0 ∧ WF xSys.disk := ⟨by decide +kernel, xSys_wf⟩

/-- **C161 is broken**: an older package that the directory lists behind the new one is what is installed in the end. -/
theorem C161_older_counterexample :
    (installPackage true "foo".toList ["foo.cards-2-1".toList, "foo.cards-1-1".toList] mkPkgs xSys).2.2 = 0 ∧
    ¬ Owns (installPackage true "foo".toList ["foo.cards-2-1".toList, "foo.cards-1-1".toList] mkPkgs xSys).2.1.disk "foo".toList "etc/foo.new".toList := by
  refine ⟨by decide +kernel, ?_⟩
  rintro ⟨i, hi, hf⟩
  revert hi hf
  have : ∀ e ∈ (installPackage true "foo".toList ["foo.cards-2-1".toList, "foo.cards-1-1".toList] mkPkgs xSys).2.1.disk, e.1 = "foo".toList → "etc/foo.new".toList ∉ e.2.files := by
    decide +kernel
  intro hi hf
  exact this _ hi rfl hf

/-- **C161 is broken**: with a new group the main package is upgraded and the command fails. -/
theorem C161_half_counterexample :
    (installPackage true "foo".toList ["foo.cards-2-1".toList, "foo.devel.cards-2-1".toList] mkPkgs xSys).2.2 = 9 ∧
    (installPackage true "foo".toList ["foo.cards-2-1".toList, "foo.devel.cards-2-1".toList] mkPkgs xSys).1 = ["foo.cards-2-1".toList] := by
  constructor <;> decide +kernel

/-! ## Cleaning -/

open Classical in
theorem rmFile_get (fs : Fs) (k x : List Str) : (fs.rmFile k).get x = if k = x ∧ ∃ d m, fs.get x = some (.file d m) then none else fs.get x := by
  unfold Fs.rmFile
  cases h : fs.get k with
  | none =>
    simp only
    split
    · rename_i hx
      obtain ⟨rfl, d, m, hd⟩ := hx
      rw [h] at hd
      cases hd
    · rfl
  | some n =>
    cases n with
    | file d m =>
      simp only [Fs.get_del]
      by_cases hk : k = x
      · subst hk
        simp [h]
      · simp [hk]
    | dir m =>
      simp only
      split
      · rename_i hx
        obtain ⟨rfl, d, m', hd⟩ := hx
        rw [h] at hd
        cases hd
      · rfl

open Classical in
theorem rmFiles_get (ks : List (List Str)) : ∀ (fs : Fs) (x : List Str),
    (ks.foldl Fs.rmFile fs).get x = if x ∈ ks ∧ ∃ d m, fs.get x = some (.file d m) then none else fs.get x := by
  induction ks with
  | nil => intro fs x; simp
  | cons k ks ih =>
    intro fs x
    rw [List.foldl_cons, ih, rmFile_get]
    by_cases hf : ∃ d m, fs.get x = some (.file d m)
    · by_cases hk : k = x
      · subst hk; simp [hf]
      · simp [hk, Ne.symm hk, hf]
    · simp [hf]

theorem foldl_rm_map {α} (g : α → List Str) (l : List α) (fs : Fs) : l.foldl (fun fs t => fs.rmFile (g t)) fs = (l.map g).foldl Fs.rmFile fs := by
  rw [List.foldl_map]

/-- A package file of the port, by its name. -/
def LooksOwn (name t : Str) : Prop := ∃ a b, t = name ++ '.' :: a ++ "cards-".toList ++ b

/-- A footprint, by its name. -/
def FootprintName (k : List Str) : Prop := ∃ d x, k = d ++ [x ++ ".footprint".toList]

theorem footprint_iff (k : List Str) : (".footprint".toList.isSuffixOf (baseOf k) = true) ↔ FootprintName k := by
  unfold FootprintName baseOf
  rw [List.isSuffixOf_iff_suffix]
  generalize hf : ".footprint".toList = f
  have hne : f ≠ [] := by rw [← hf]; decide
  rcases List.eq_nil_or_concat k with rfl | ⟨d, y, rfl⟩
  · simp [hne]
  · rw [List.concat_eq_append]
    simp only [List.getLast?_append, List.getLast?_singleton, Option.some_or, Option.getD_some]
    constructor
    · rintro ⟨x, rfl⟩
      exact ⟨d, x, rfl⟩
    · rintro ⟨d', x, e⟩
      have := List.append_inj_right' e rfl
      simp only [List.cons.injEq, and_true] at this
      exact ⟨x, this.symm⟩

open Classical in
/-- **C162, exactly.** `clean` removes the regular files at the top of the directory of the packages that are named like packages of the port, and the regular files named like a footprint anywhere below the directory of
the port; everything else stays. -/
theorem C162_exact (name : Str) (hn : ∀ c ∈ name, c ≠ '*' ∧ c ≠ '[') (packages port : List Str) (fs : Fs) (k : List Str) :
    ((cleanPort name packages port fs).get k = none ↔
      fs.get k = none ∨ (∃ d m, fs.get k = some (.file d m)) ∧ ((∃ t, k = packages ++ [t] ∧ LooksOwn name t) ∨ (Inside k port ∧ FootprintName k))) ∧
    ((cleanPort name packages port fs).get k ≠ none → (cleanPort name packages port fs).get k = fs.get k) := by
  have key : (cleanPort name packages port fs).get k =
      if (∃ d m, fs.get k = some (.file d m)) ∧ ((∃ t, k = packages ++ [t] ∧ LooksOwn name t) ∨ (Inside k port ∧ FootprintName k)) then none else fs.get k := by
    unfold cleanPort
    simp only
    have hin : ∀ d : List Str, ∀ x : List Str, (d.isPrefixOf x && decide (x ≠ d)) = true ↔ Inside x d := by
      intro d x
      simp only [Bool.and_eq_true, decide_eq_true_eq, List.isPrefixOf_iff_prefix]
      constructor
      · rintro ⟨⟨r, rfl⟩, h⟩
        cases r with
        | nil => simp at h
        | cons c r => exact ⟨c, r, rfl⟩
      · rintro ⟨c, r, rfl⟩
        exact ⟨⟨_, rfl⟩, by simp⟩
    rw [foldl_rm_map (fun t => packages ++ [t]), foldl_rm_map (fun e : List Str × Node => e.1)]
    generalize hfs1 : ((packagesList name (namesBelow fs packages)).map (fun t => packages ++ [t])).foldl Fs.rmFile fs = fs1
    have h1 : fs1.get k = if (∃ t, k = packages ++ [t] ∧ LooksOwn name t) ∧ ∃ d m, fs.get k = some (.file d m) then none else fs.get k := by
      rw [← hfs1, rmFiles_get]
      by_cases hf : ∃ d m, fs.get k = some (.file d m)
      · simp only [hf, and_true]
        have : (k ∈ (packagesList name (namesBelow fs packages)).map (fun t => packages ++ [t])) ↔ ∃ t, k = packages ++ [t] ∧ LooksOwn name t := by
          rw [List.mem_map]
          constructor
          · rintro ⟨t, ht, rfl⟩
            exact ⟨t, rfl, ((mem_packagesList hn).mp ht).2⟩
          · rintro ⟨t, rfl, ht⟩
            refine ⟨t, (mem_packagesList hn).mpr ⟨?_, ht⟩, rfl⟩
            unfold namesBelow
            obtain ⟨d, m, hd⟩ := hf
            rw [List.mem_map]
            obtain ⟨w, he⟩ := Fs.mem_keys_of_get hd
            generalize hee : ((packages ++ [t], w) : List Str × Node) = e at he
            have he' : e.1 = packages ++ [t] := by rw [← hee]
            refine ⟨e, ?_, ?_⟩
            · rw [List.mem_filter]
              refine ⟨he, ?_⟩
              rw [he']
              exact (hin packages _).mpr ⟨t, [], rfl⟩
            · rw [he']
              simp [baseOf]
        simp only [this]
      · simp [hf]
    rw [rmFiles_get]
    have hmem : k ∈ (fs1.filter (fun e => port.isPrefixOf e.1 && e.1 ≠ port && ".footprint".toList.isSuffixOf (baseOf e.1))).map (fun e => e.1) ↔
        k ∈ fs1.map (·.1) ∧ Inside k port ∧ FootprintName k := by
      simp only [List.mem_map, List.mem_filter]
      constructor
      · rintro ⟨e, ⟨he, hp⟩, rfl⟩
        rw [Bool.and_eq_true] at hp
        exact ⟨⟨e, he, rfl⟩, (hin _ _).mp hp.1, (footprint_iff _).mp hp.2⟩
      · rintro ⟨⟨e, he, rfl⟩, hi, hf⟩
        refine ⟨e, ⟨he, ?_⟩, rfl⟩
        rw [Bool.and_eq_true]
        exact ⟨(hin _ _).mpr hi, (footprint_iff _).mpr hf⟩
    simp only [hmem]
    by_cases hown : ∃ t, k = packages ++ [t] ∧ LooksOwn name t
    · by_cases hf : ∃ d m, fs.get k = some (.file d m)
      · simp [h1, hown, hf]
      · simp only [h1, hf, and_false, false_and, if_false]
    · simp only [hown, false_and, if_false, false_or] at h1 ⊢
      rw [h1]
      by_cases hf : ∃ d m, fs.get k = some (.file d m)
      · have hk : k ∈ fs1.map (·.1) := by
          obtain ⟨d, m, hd⟩ := hf
          obtain ⟨w, he⟩ := Fs.mem_keys_of_get (h1.trans hd)
          exact List.mem_map.mpr ⟨_, he, rfl⟩
        simp [hf, hk]
      · simp [hf]
  rw [key]
  split
  · rename_i h
    simp [h]
  · rename_i h
    simp [h]

/-- **C162, as far as it holds.** A file that is not named like a footprint, and not like a package of the port, stays; so do all packages of other ports whose name has no point. -/
theorem C162_kept_partial (name : Str) (hn : '.' ∉ name) (hb : ∀ c ∈ name, c ≠ '*' ∧ c ≠ '[') (packages port : List Str) (fs : Fs) (d : List Str) (n : Str) (sub : Option Str) (v r : Str)
    (hn' : '.' ∉ n) (hne : n ≠ name) (hf : ¬ FootprintName (d ++ [pkgFileName n sub v r])) :
    (cleanPort name packages port fs).get (d ++ [pkgFileName n sub v r]) = fs.get (d ++ [pkgFileName n sub v r]) := by
  by_cases hg : (cleanPort name packages port fs).get (d ++ [pkgFileName n sub v r]) = none
  · rcases ((C162_exact name hb packages port fs _).1).mp hg with h | ⟨_, ⟨t, ht, hl⟩ | ⟨_, h⟩⟩
    · rw [hg, h]
    · exfalso
      have := List.append_inj_right' ht rfl
      simp only [List.cons.injEq, and_true] at this
      subst this
      have hp : pkgFileName n sub v r ∈ packagesList name [pkgFileName n sub v r] := (mem_packagesList hb).mpr ⟨by simp, hl⟩
      exact hne ((C95_only_own_partial name hn ⟨fun h => (hb _ h).2 rfl, fun h => (hb _ h).1 rfl⟩ _ n sub v r hn' (by simp)).mp hp)
    · exact absurd h hf
  · exact (C162_exact name hb packages port fs _).2 hg

/-- A port with its footprint, a package of it, and one of another port whose name has a point. -/
def cleanFs : Fs :=
  [(["ls".toList], .dir 0o755), (["ls".toList, "Pkgfile".toList], .file [] 0o644), (["ls".toList, "ls.footprint".toList], .file "usr/".toList 0o644),
   (["ls".toList, "ls.cards-1-1".toList], .file [] 0o644), (["ls".toList, "ls.x.cards-1-1".toList], .file [] 0o644), (["ls".toList, "ls.post-install".toList], .file [] 0o644)]

/-- **C162 is broken**: the footprint the port came with is gone; the rest of the port is there. -/
theorem C162_footprint_counterexample :
    cleanFs.get ["ls".toList, "ls.footprint".toList] ≠ none ∧ (cleanPort "ls".toList ["ls".toList] ["ls".toList] cleanFs).get ["ls".toList, "ls.footprint".toList] = none ∧
    (cleanPort "ls".toList ["ls".toList] ["ls".toList] cleanFs).get ["ls".toList, "ls.post-install".toList] ≠ none := by
  refine ⟨by decide +kernel, by decide +kernel, by decide +kernel⟩

/-! ## Footprints made anew -/

theorem updateFootprints_ok (ts : List (Str × Option (List Str))) : ∀ (prints : List (Str × List Str)), (∀ t ∈ ts, t.2.isSome = true) →
    (updateFootprints ts prints).2 = 0 ∧
    (∀ n, (∀ t ∈ ts, getPackageName t.1 ≠ n) → mget (updateFootprints ts prints).1 n = mget prints n) ∧
    (∀ pre t post lines, ts = pre ++ (t, some lines) :: post → (∀ t' ∈ post, getPackageName t'.1 ≠ getPackageName t) → mget (updateFootprints ts prints).1 (getPackageName t) = some lines) := by
  induction ts with
  | nil =>
    intro prints _
    refine ⟨rfl, fun _ _ => rfl, ?_⟩
    intro pre t post lines h
    simp at h
  | cons x ts ih =>
    intro prints h
    obtain ⟨t, o⟩ := x
    cases o with
    | none => simpa using h (t, none) (by simp)
    | some lines =>
      obtain ⟨i1, i2, i3⟩ := ih (mset (getPackageName t) lines prints) (fun t ht => h t (by simp [ht]))
      refine ⟨i1, ?_, ?_⟩
      · intro n hn
        show mget (updateFootprints ts (mset (getPackageName t) lines prints)).1 n = _
        rw [i2 n (fun t' ht' => hn t' (by simp [ht'])), mget_mset, if_neg (hn (t, some lines) (by simp))]
      · intro pre t' post lines' hts hpost
        show mget (updateFootprints ts (mset (getPackageName t) lines prints)).1 _ = _
        cases pre with
        | nil =>
          simp only [List.nil_append, List.cons.injEq, Prod.mk.injEq, Option.some.injEq] at hts
          obtain ⟨⟨rfl, rfl⟩, rfl⟩ := hts
          rw [i2 _ hpost, mget_mset, if_pos rfl]
        | cons y pre =>
          simp only [List.cons_append, List.cons.injEq] at hts
          exact i3 pre t' post lines' hts.2 hpost

/-- **C163, as far as it holds.** If the packages in the directory are of different names, `pkgmk -uf` succeeds, the footprint of each is what the package holds now, the other footprints are what they were; and a check of
these packages then passes, shows no difference and changes nothing. -/
theorem C163_updated_partial (diff : List Str → List Str → List DiffLine) (hd : DiffOk diff) (srt : List Str → List Str) (ign : Bool) (prints : List (Str × List Str)) (targets : List (Str × Option (List Str)))
    (hne : targets ≠ []) (hthere : ∀ t ∈ targets, t.2.isSome = true) (hsort : ∀ t ∈ targets, ∀ l, t.2 = some l → srt l = l) (hn : (targets.map (fun t => getPackageName t.1)).Nodup) :
    (updateFootprint targets prints).2 = 0 ∧
    (∀ t l, (t, some l) ∈ targets → mget (updateFootprint targets prints).1 (getPackageName t) = some l) ∧
    (∀ n, (∀ t ∈ targets, getPackageName t.1 ≠ n) → mget (updateFootprint targets prints).1 n = mget prints n) ∧
    (checkFootprint diff srt ign (updateFootprint targets prints).1 targets).ok = true ∧
    (checkFootprint diff srt ign (updateFootprint targets prints).1 targets).shown = [] ∧
    (checkFootprint diff srt ign (updateFootprint targets prints).1 targets).prints = (updateFootprint targets prints).1 := by
  have e : updateFootprint targets prints = updateFootprints targets prints := by simp [updateFootprint, hne]
  rw [e]
  obtain ⟨i1, i2, i3⟩ := updateFootprints_ok targets prints hthere
  have hget : ∀ t l, (t, some l) ∈ targets → mget (updateFootprints targets prints).1 (getPackageName t) = some l := by
    intro t l ht
    obtain ⟨pre, post, hts⟩ := List.append_of_mem ht
    refine i3 pre t post l hts ?_
    intro t' ht' he
    rw [hts, List.map_append, List.map_cons] at hn
    have := (List.nodup_cons.mp (List.nodup_append.mp hn).2.1).1
    exact this (he ▸ List.mem_map.mpr ⟨t', ht', rfl⟩)
  refine ⟨i1, hget, i2, ?_⟩
  generalize (updateFootprints targets prints).1 = P at hget
  have key : ∀ (ts : List (Str × Option (List Str))) (st : FpState), st.prints = P → (∀ t ∈ ts, t ∈ targets) → ts.foldl (fpStep diff srt ign) st = st := by
    intro ts
    induction ts with
    | nil => intro st _ _; rfl
    | cons x ts ih =>
      intro st hst hsub
      have hx := hsub x (by simp)
      obtain ⟨t, o⟩ := x
      have : fpStep diff srt ign st (t, o) = st := by
        cases o with
        | none => simpa using hthere (t, none) hx
        | some l =>
          have hs := hsort (t, some l) hx l rfl
          have hnil : (diff l l).filter (fun x => !fpDropped x) = [] := by
            rw [hd.same l l rfl]
            rfl
          simp only [fpStep, hst, hget t l hx, hs, hnil, if_true]
      rw [List.foldl_cons, this]
      exact ih st hst (fun t ht => hsub t (by simp [ht]))
  unfold checkFootprint
  rw [key targets ⟨P, true, []⟩ rfl (fun t ht => ht)]
  exact ⟨rfl, rfl, rfl⟩

example : ([(fpFile, some fpLines), ("ls.man.cards-1.0-1".toList, some (fpLines.take 1))].map (fun t => getPackageName t.1)).Nodup ∧ DiffOk setDiff := ⟨by decide +kernel, setDiff_ok⟩

/-- **C163, a package that is not there.** The command fails with the status 7; the footprints of the packages before it have been made. -/
theorem C163_absent (pre post : List (Str × Option (List Str))) (t : Str) (prints : List (Str × List Str)) (h : ∀ x ∈ pre, x.2.isSome = true) :
    updateFootprint (pre ++ (t, none) :: post) prints = ((updateFootprints pre prints).1, 7) := by
  have : pre ++ (t, none) :: post ≠ [] := by simp
  rw [updateFootprint, if_neg this]
  induction pre generalizing prints with
  | nil => rfl
  | cons x pre ih =>
    obtain ⟨y, o⟩ := x
    cases o with
    | none => simpa using h (y, none) (by simp)
    | some l => exact ih _ (fun x hx => h x (by simp [hx])) (by simp)

/-- Without a package it is an error, and nothing is written. -/
theorem C163_nothing (prints : List (Str × List Str)) : updateFootprint [] prints = (prints, 7) := rfl

/-- **C163 is broken**: with two versions of a package in the directory only the last is described, and the check that follows fails. -/
theorem C163_two_versions_counterexample :
    let ts : List (Str × Option (List Str)) := [("ls.cards-1.1-1".toList, some fpLines), ("ls.cards-1.0-1".toList, some (fpLines.take 1))]
    (updateFootprint ts []).2 = 0 ∧ (checkFootprint setDiff id false (updateFootprint ts []).1 ts).ok = false := by decide +kernel

end Cards.Props
