import Verif.Props.Sync
import Verif.Props.Repo
import Verif.Props.Verify
/-!
# C70, C72: from `cards repo` through `cards sync` to the package files
-/
namespace Cards.Props
open Cards

theorem content_of {fs : Fs} {p c : Str} (h : HasContent fs (comps p) c) : fs.content p = some c := by
  obtain ⟨m, h⟩ := h
  unfold Fs.content
  rw [h]

theorem comps_coll_file (d : DirUrl) (n : Str) : comps (d.depot ++ "/".toList ++ d.collection ++ '/' :: n) = d.place ++ comps n := by
  rw [splitSlash_append]; rfl

/-- **C70, first part**: when every transfer delivers what the server has, `cards sync` succeeds and brings every publication to the depot. -/
theorem C70_arrives_partial (unz : Str → Option Str) (hash : Str → Str) (arch version : Str) (dirs : List DirUrl) (pub : DirUrl → Publication) (serve : Str → Str)
    (net : Nat → Str → Transfer) (hnet : ∀ i a, net i a = .complete (serve a)) (fs : Fs) (d : DirUrl) (hd : d ∈ dirs) (hu : d.url ≠ []) (ho : OwnPlace dirs d)
    (hs : Served serve unz hash arch version d (pub d)) :
    (cardsSync true net unz arch version dirs fs).2 = true ∧ InDepot (cardsSync true net unz arch version dirs fs).1 hash d (pub d) := by
  have hok := C68_succeeds net unz arch version dirs fs (fun i a => ⟨_, hnet i a⟩)
  obtain ⟨⟨i1, c1, a1, b1⟩, ⟨i2, c2, a2, b2⟩, ⟨i3, c3, a3, b3⟩⟩ :=
    C68_synced_partial net unz arch version dirs fs (cardsSync true net unz arch version dirs fs).1 (Prod.ext rfl hok) d hd hu ho
  rw [hnet] at a1 a2 a3
  injection a1 with a1
  injection a2 with a2
  injection a3 with a3
  subst a1 a2 a3
  refine ⟨hok, ?_, b2 hs.repo.1 _ hs.repo.2, b3 hs.files.1 _ hs.files.2⟩
  rw [hs.key.1] at b1
  exact b1 hs.key.2

/-- What is in the depot is read as the lines that were written. -/
theorem collOf_repo {fs : Fs} {hash : Str → Str} {d : DirUrl} {p : Publication} (arch version : Str) (h : InDepot fs hash d p) (hp : p.Ok hash) :
    (collOf arch version fs d).repo = some (writeRepo (p.recs hash)) := by
  have : fs.content (d.depot ++ "/".toList ++ d.collection ++ "/.REPO".toList) = some (repoText hash p.sign p.pkgs) := by
    apply content_of
    have := comps_coll_file d ".REPO".toList
    rw [show comps (d.depot ++ "/".toList ++ d.collection ++ "/.REPO".toList) = _ from this]
    exact h.repo
  unfold collOf
  simp only [this, Option.bind_some]
  exact C26_bytes_partial _ hp.lines

/-- The key in the depot decides. -/
theorem depotVerify_key {fs : Fs} {hash : Str → Str} {d : DirUrl} {p : Publication} (h : InDepot fs hash d p) (vf : Str → Str → Str → Option Bool) (sig hs : Str) :
    depotVerify vf fs (d.depot ++ '/' :: d.collection) sig hs = vf p.key sig hs := by
  have : fs.content (d.depot ++ '/' :: d.collection ++ publicKey) = some p.key := by
    apply content_of
    have e : d.depot ++ '/' :: d.collection ++ publicKey = d.depot ++ "/".toList ++ d.collection ++ '/' :: ".PKEY".toList := by
      simp only [List.append_assoc]; rfl
    rw [e, comps_coll_file]
    exact h.key
  unfold depotVerify
  rw [this]

/-- **C70, part that holds**: when the publication of every collection is in the depot (as `cards sync` leaves it there, or because the collection is a local
one), the repository that the commands read knows exactly the published packages; what it says about the last one of a name is what was published; and
a package file passes the check of its signature exactly when its hash is that of the published file. The signature scheme is a hypothesis: a signature
is accepted for the text that was signed, and for no other one. Missing: see C26. -/
theorem C70_roundtrip_partial (init : RepoPkg) (hash : Str → Str) (vf : Str → Str → Str → Option Bool) (arch version : Str) (dirs : List DirUrl)
    (pub : DirUrl → Publication) (fs : Fs) (hd : ∀ d ∈ dirs, d.collection ≠ [] ∧ (pub d).Ok hash ∧ InDepot fs hash d (pub d))
    (hv : ∀ d ∈ dirs, ∀ h h', vf (pub d).key ((pub d).sign h) h' = some true ↔ h' = h) :
    ∃ m, parseRepo init (dirs.map (collOf arch version fs)) = some m ∧
      (∀ n, n ∈ keys m ↔ ∃ d ∈ dirs, ∃ r ∈ (pub d).recs hash, r.Has 'N' n) ∧
      (∀ A d B a p b n, dirs = A ++ d :: B → (pub d).pkgs = a ++ p :: b → ('N' :: n) ∈ p.md →
        (∀ q ∈ b ++ B.flatMap (fun e => (pub e).pkgs), ('N' :: n) ∉ q.md) →
        ∃ e, mget m n = some e ∧ Describes e (p.asRec hash (pub d).sign) (collOf arch version fs d) ∧
          e.hash = hash p.content ∧
          ∀ c, depotVerify vf fs e.dirName e.signature (hash c) = some true ↔ hash c = hash p.content) := by
  have hall : allRecs (dirs.map (fun d => (collOf arch version fs d, (pub d).recs hash))) =
      dirs.flatMap (fun d => ((pub d).recs hash).map (fun r => (collOf arch version fs d, r))) := by
    unfold allRecs
    rw [List.flatMap_map]
  obtain ⟨m, h1, h2, h3⟩ := C26_roundtrip_partial init (dirs.map (fun d => (collOf arch version fs d, (pub d).recs hash))) (by
    intro x hx
    obtain ⟨d, hdd, rfl⟩ := List.mem_map.mp hx
    obtain ⟨a, b, c⟩ := hd d hdd
    exact ⟨collOf_repo arch version c b, a, b.recs⟩)
  rw [hall] at h2 h3
  refine ⟨m, ?_, ?_, ?_⟩
  · rw [← h1, List.map_map]; rfl
  · intro n
    rw [h3]
    constructor
    · rintro ⟨x, hx, hn⟩
      obtain ⟨d, hdd, hx⟩ := List.mem_flatMap.mp hx
      obtain ⟨r, hr, rfl⟩ := List.mem_map.mp hx
      exact ⟨d, hdd, r, hr, hn⟩
    · rintro ⟨d, hdd, r, hr, hn⟩
      exact ⟨_, List.mem_flatMap.mpr ⟨d, hdd, List.mem_map.mpr ⟨r, hr, rfl⟩⟩, hn⟩
  · intro A d B a p b n hdirs hpk hn hlast
    have hdd : d ∈ dirs := by rw [hdirs]; simp
    obtain ⟨e, he, hdesc⟩ := h2
      (A.flatMap (fun d => ((pub d).recs hash).map (fun r => (collOf arch version fs d, r))) ++ a.map (fun q => (collOf arch version fs d, q.asRec hash (pub d).sign)))
      (collOf arch version fs d) (p.asRec hash (pub d).sign)
      (b.map (fun q => (collOf arch version fs d, q.asRec hash (pub d).sign)) ++
        B.flatMap (fun d => ((pub d).recs hash).map (fun r => (collOf arch version fs d, r)))) (by
        rw [hdirs, List.flatMap_append, List.flatMap_cons]
        unfold Publication.recs
        rw [hpk]
        simp [List.map_append]
        rfl) n hn (by
        intro x hx
        rcases List.mem_append.mp hx with hx | hx
        · obtain ⟨q, hq, rfl⟩ := List.mem_map.mp hx
          exact hlast q (by simp [hq])
        · obtain ⟨d', hd', hx⟩ := List.mem_flatMap.mp hx
          obtain ⟨r, hr, rfl⟩ := List.mem_map.mp hx
          obtain ⟨q, hq, rfl⟩ := List.mem_map.mp hr
          exact hlast q (List.mem_append.mpr (.inr (List.mem_flatMap.mpr ⟨d', hd', hq⟩))))
    refine ⟨e, he, hdesc, hdesc.hash, fun c => ?_⟩
    rw [hdesc.dir, hdesc.signature]
    have := depotVerify_key (hd d hdd).2.2 vf ((pub d).sign (hash p.content)) (hash c)
    show depotVerify vf fs (d.depot ++ '/' :: d.collection) ((pub d).sign (hash p.content)) (hash c) = some true ↔ _
    rw [this]
    exact hv d hdd _ _

/-- **C70, the whole way**: publish, sync (every transfer delivers what the server has), read: the publications with an address come from the server, those
without one are in the depot and share no directory with the others. -/
theorem C70_sync_read_partial (init : RepoPkg) (unz : Str → Option Str) (hash : Str → Str) (vf : Str → Str → Str → Option Bool) (arch version : Str) (dirs : List DirUrl)
    (pub : DirUrl → Publication) (serve : Str → Str) (net : Nat → Str → Transfer) (hnet : ∀ i a, net i a = .complete (serve a)) (fs : Fs)
    (hd : ∀ d ∈ dirs, d.collection ≠ [] ∧ (pub d).Ok hash)
    (hremote : ∀ d ∈ dirs, d.url ≠ [] → OwnPlace dirs d ∧ Served serve unz hash arch version d (pub d))
    (hlocal : ∀ d ∈ dirs, d.url = [] → (∀ e ∈ dirs, e.url ≠ [] → e.place ≠ d.place) ∧ InDepot fs hash d (pub d))
    (hv : ∀ d ∈ dirs, ∀ h h', vf (pub d).key ((pub d).sign h) h' = some true ↔ h' = h) :
    (cardsSync true net unz arch version dirs fs).2 = true ∧
    ∃ m, parseRepo init (dirs.map (collOf arch version (cardsSync true net unz arch version dirs fs).1)) = some m ∧
      (∀ n, n ∈ keys m ↔ ∃ d ∈ dirs, ∃ r ∈ (pub d).recs hash, r.Has 'N' n) ∧
      (∀ A d B a p b n, dirs = A ++ d :: B → (pub d).pkgs = a ++ p :: b → ('N' :: n) ∈ p.md →
        (∀ q ∈ b ++ B.flatMap (fun e => (pub e).pkgs), ('N' :: n) ∉ q.md) →
        ∃ e, mget m n = some e ∧ Describes e (p.asRec hash (pub d).sign) (collOf arch version (cardsSync true net unz arch version dirs fs).1 d) ∧
          e.hash = hash p.content ∧
          ∀ c, depotVerify vf (cardsSync true net unz arch version dirs fs).1 e.dirName e.signature (hash c) = some true ↔ hash c = hash p.content) := by
  refine ⟨C68_succeeds net unz arch version dirs fs (fun i a => ⟨_, hnet i a⟩), ?_⟩
  apply C70_roundtrip_partial init hash vf arch version dirs pub _ _ hv
  intro d hdd
  refine ⟨(hd d hdd).1, (hd d hdd).2, ?_⟩
  by_cases hu : d.url = []
  · obtain ⟨h1, ⟨m1, k1⟩, ⟨m2, k2⟩, ⟨m3, k3⟩⟩ := hlocal d hdd hu
    have keep : ∀ n, (cardsSync true net unz arch version dirs fs).1.get (d.place ++ [n]) = fs.get (d.place ++ [n]) := by
      intro n
      refine (C68_only_lists true net unz arch version dirs fs _ ?_).1
      rintro ⟨e, he, heu, x, -, hx⟩
      exact h1 e he heu (List.append_inj' hx rfl).1.symm
    exact ⟨⟨m1, (keep _).trans k1⟩, ⟨m2, (keep _).trans k2⟩, ⟨m3, (keep _).trans k3⟩⟩
  · exact (C70_arrives_partial unz hash arch version dirs pub serve net hnet fs d hdd hu (hremote d hdd hu).1 (hremote d hdd hu).2).2

/-- Without a public key in the depot no package passes the check. -/
theorem C70_no_key (vf : (key sig hash : Str) → Option Bool) (fs : Fs) (dir sig hash : Str) (h : fs.content (dir ++ "/.PKEY".toList) = none) :
    depotVerify vf fs dir sig hash = none := by
  unfold depotVerify
  rw [show publicKey = "/.PKEY".toList from rfl, h]

/-- The list of the files is read back as it was written: for each package file its name and the files in it. -/
theorem C70_files_partial (hash : Str → Str) (d : DirUrl) (p : Publication) (fs : Fs) (h : InDepot fs hash d p) (hp : p.Ok hash) :
    (fs.content (d.depot ++ "/".toList ++ d.collection ++ "/.FILES".toList)).bind parseFile =
      some (p.pkgs.flatMap (fun q => ('@' :: q.file) :: q.files ++ [[]])) := by
  have : fs.content (d.depot ++ "/".toList ++ d.collection ++ "/.FILES".toList) = some (filesText p.pkgs) := by
    apply content_of
    have := comps_coll_file d ".FILES".toList
    rw [show comps (d.depot ++ "/".toList ++ d.collection ++ "/.FILES".toList) = _ from this]
    exact h.files
  have e : p.pkgs.flatMap (fun q => ('@' :: q.file) :: q.files ++ [[]]) = writeFiles (p.pkgs.map PkgFile.asFRec) := by
    unfold writeFiles
    rw [List.flatMap_map]
    rfl
  rw [this, Option.bind_some, e]
  exact C34_reads_exactly_partial _ hp.files

/-- **C70, the package file**: with the entry that was read and the key of the depot, a package whose published file the server delivers passes the check,
whatever was in the depot under its name before: what is there at the end has the published hash. -/
theorem C70_fetched (net : Net) (e : RepoPkg) (n : Str) (content : Str) (s : ResSt) (hhash : e.hash = net.hash content)
    (hv : ∀ c, net.verify e.dirName e.signature (net.hash c) = some true ↔ net.hash c = net.hash content)
    (hlow : ∀ c, hashEq (net.hash c) (net.hash content) = true → net.hash c = net.hash content)
    (hfetch : ∀ k, net.fetch k n = .got content) :
    ∃ s', fetchAndCheck net e n s = .ok s' ∧ (net.url ≠ [] → ∃ c, mget s'.files e.path = some c ∧ net.hash c = net.hash content) := by
  by_cases hu : net.url = []
  · exact ⟨s, by unfold fetchAndCheck; rw [if_pos hu], fun h => absurd hu h⟩
  have heq : hashEq (net.hash content) e.hash = true := by rw [hhash]; simp [hashEq]
  have hcheck : ∀ (s : ResSt) c, mget s.files e.path = some c → net.hash c = net.hash content → checkSign net e n s = .ok s := by
    intro s c hc hh
    unfold checkSign
    rw [hc]
    simp only [(hv c).mpr hh]
  have hdl : ∀ s : ResSt, ∃ s', download net e n s = .ok s' ∧ mget s'.files e.path = some content := by
    intro s
    unfold download
    rw [hfetch]
    exact ⟨_, rfl, by simp [mget_mset]⟩
  have hre : ∀ (s : ResSt) c, mget s.files e.path = some c → ∃ s' c', recheckFile net e n s = .ok s' ∧ mget s'.files e.path = some c' ∧ net.hash c' = net.hash content := by
    intro s c hc
    unfold recheckFile
    rw [hc]
    simp only
    by_cases hh : hashEq (net.hash c) e.hash = true
    · rw [if_pos hh]
      exact ⟨s, c, rfl, hc, hlow c (hhash ▸ hh)⟩
    · rw [if_neg hh]
      obtain ⟨s', h1, h2⟩ := hdl s
      exact ⟨s', content, h1, h2, rfl⟩
  have hen : ∃ s' c, ensureFile net e n s = .ok s' ∧ mget s'.files e.path = some c := by
    unfold ensureFile
    cases hc : mget s.files e.path with
    | none => obtain ⟨s', h1, h2⟩ := hdl s; exact ⟨s', content, by simpa using h1, h2⟩
    | some c => exact ⟨s, c, by simp, hc⟩
  obtain ⟨s1, c1, e1, g1⟩ := hen
  obtain ⟨s2, c2, e2, g2, hh⟩ := hre s1 c1 g1
  refine ⟨s2, ?_, fun _ => ⟨c2, g2, hh⟩⟩
  unfold fetchAndCheck
  rw [if_neg hu, e1]
  show (recheckFile net e n s1 >>= checkSign net e n) = _
  rw [e2]
  exact hcheck s2 c2 g2 hh

/-! ### A concrete publication -/

/-- Hash: the content itself. -/
def pbHash : Str → Str := id
/-- Signature: the text with the key in front. -/
def pbSign (key : Str) (h : Str) : Str := key ++ '!' :: h
/-- Verification. -/
def pbVf (key sig h : Str) : Option Bool := some (decide (sig = key ++ '!' :: h))

/-- Two packages, signed with the private key that belongs to the public key `k`. -/
def pbPub : Publication where
  pkgs := [⟨"bash.cards-1-x-1-1".toList, "bash".toList, ["Nbash".toList, "B1700000000".toList], ["bin/bash".toList]⟩,
    ⟨"zlib.cards-1-x-1-1".toList, "zlib".toList, ["Nzlib".toList, "B1700000000".toList], ["lib/libz.so".toList]⟩]
  sign := pbSign "k".toList
  key := "k".toList

/-- The number 4 as `itos` writes it. -/
theorem pb_itos : itos 4 = "4".toList := by
  unfold itos
  rw [show (4 : Nat) % 2 ^ 32 = 4 from rfl, dec]
  rfl

/-- The lines of `.REPO`. -/
def pbLines : List Str := ["@bash.cards-1-x-1-1".toList, "Nbash".toList, "B1700000000".toList, "Hbash".toList, "Ik!bash".toList, "i4".toList, [],
  "@zlib.cards-1-x-1-1".toList, "Nzlib".toList, "B1700000000".toList, "Hzlib".toList, "Ik!zlib".toList, "i4".toList, []]

theorem pb_lines : writeRepo (pbPub.recs pbHash) = pbLines := by
  simp only [Publication.recs, pbPub, List.map_cons, List.map_nil, writeRepo, List.flatMap_cons, List.flatMap_nil, Rec.lines, PkgFile.asRec]
  rw [show ("bash".toList).length = 4 from rfl, show ("zlib".toList).length = 4 from rfl, pb_itos]
  rfl

theorem pb_recok : ∀ r ∈ pbPub.recs pbHash, RecOk r := by
  intro r hr
  have key : ∀ (f n c : Str) (s z : Nat) (h g : Str), (∃ a b, f = a ++ ".cards-".toList ++ b) →
      RecOk { file := f, md := ['N' :: n, 'B' :: c], hash := h, sign := g, size := z } := by
    intro f n c s z h g hf
    refine ⟨?_, hf, ⟨n, by simp [Rec.Has]⟩, ?_, ?_, ?_, ?_⟩
    · intro l hl
      simp only [List.mem_cons, List.not_mem_nil, or_false] at hl
      rcases hl with rfl | rfl
      · exact ⟨'N', n, rfl, by decide, by decide, by decide, by decide⟩
      · exact ⟨'B', c, rfl, by decide, by decide, by decide, by decide⟩
    · intro x hx v w hv hw
      simp only [Rec.Has, List.mem_cons, List.not_mem_nil, or_false, List.cons.injEq] at hv hw
      rcases hv with ⟨rfl, rfl⟩ | ⟨rfl, rfl⟩ <;> rcases hw with ⟨h, rfl⟩ | ⟨h, rfl⟩ <;> first | rfl | (exact absurd h (by decide))
    · intro v hv
      simp [Rec.Has] at hv
    · simp [Rec.Has]
    · intro v hv
      simp [Rec.Has] at hv
  simp only [Publication.recs, pbPub, List.map_cons, List.map_nil, List.mem_cons, List.not_mem_nil, or_false] at hr
  rcases hr with rfl | rfl
  · exact key _ _ _ 0 _ _ _ ⟨"bash".toList, "1-x-1-1".toList, rfl⟩
  · exact key _ _ _ 0 _ _ _ ⟨"zlib".toList, "1-x-1-1".toList, rfl⟩

theorem pb_ok : pbPub.Ok pbHash where
  recs := pb_recok
  lines := by rw [pb_lines]; decide
  files := by decide

/-- The server of the example. -/
def pbServe : Str → Str := fun a =>
  if a = "http://s/x/24/base//.PKEY".toList then "k".toList
  else if a = "http://s/x/24/base/.REPO.zst".toList then 'Z' :: repoText pbHash pbPub.sign pbPub.pkgs
  else if a = "http://s/x/24/base/.FILES.zst".toList then 'Z' :: filesText pbPub.pkgs
  else []

/-- The hypotheses of `C70_sync_read_partial` are met by the collection `syDir`. -/
example : ((∀ d ∈ [syDir], d.collection ≠ [] ∧ pbPub.Ok pbHash) ∧
    (∀ d ∈ [syDir], d.url ≠ [] → OwnPlace [syDir] d ∧ Served pbServe syUnz pbHash "x".toList "24".toList d pbPub) ∧
    (∀ d ∈ [syDir], d.url = [] → (∀ e ∈ [syDir], e.url ≠ [] → e.place ≠ d.place) ∧ InDepot syOld pbHash d pbPub) ∧
    (∀ d ∈ [syDir], ∀ h h', pbVf pbPub.key (pbPub.sign h) h' = some true ↔ h' = h)) := by
  refine ⟨?_, ?_, ?_, ?_⟩
  · intro d hd
    rw [List.mem_singleton.mp hd]
    exact ⟨by decide, pb_ok⟩
  · intro d hd _
    rw [List.mem_singleton.mp hd]
    refine ⟨syDir_own, ?_, ?_, ?_⟩
    · exact ⟨rfl, by decide⟩
    · have : pbServe (syDir.address "x".toList "24".toList ".REPO.zst".toList) = 'Z' :: repoText pbHash pbPub.sign pbPub.pkgs := rfl
      rw [this]
      exact ⟨List.cons_ne_nil _ _, rfl⟩
    · have : pbServe (syDir.address "x".toList "24".toList ".FILES.zst".toList) = 'Z' :: filesText pbPub.pkgs := rfl
      rw [this]
      exact ⟨List.cons_ne_nil _ _, rfl⟩
  · intro d hd h
    rw [List.mem_singleton.mp hd] at h
    exact absurd h (by decide)
  · intro d _ h h'
    show some (decide (pbSign "k".toList h = "k".toList ++ '!' :: h')) = some true ↔ _
    unfold pbSign
    simp
    exact eq_comm

/-- A server of package files. -/
def pbNet : Net where
  url := "http://s".toList
  repo := []
  db := []
  hash := fun c => if c = "zlib".toList then "ab".toList else "cd".toList
  verify := fun _ sig h => pbVf "k".toList sig h
  opens := fun _ => none
  fetch := fun _ _ => .got "zlib".toList

/-- The entry of the list. -/
def pbEntry : RepoPkg := { defaultPkg with dirName := "/d".toList, fileName := "z".toList, hash := "ab".toList, signature := "k!ab".toList }

/-- A case of `C70_fetched`: a damaged file in the depot is replaced. -/
example : pbEntry.hash = pbNet.hash "zlib".toList ∧
    (∀ c, pbNet.verify pbEntry.dirName pbEntry.signature (pbNet.hash c) = some true ↔ pbNet.hash c = pbNet.hash "zlib".toList) ∧
    (∀ c, hashEq (pbNet.hash c) (pbNet.hash "zlib".toList) = true → pbNet.hash c = pbNet.hash "zlib".toList) := by
  refine ⟨rfl, fun c => ?_, fun c => ?_⟩
  · by_cases h : c = "zlib".toList
    · subst h; decide
    · have : pbNet.hash c = "cd".toList := if_neg h
      rw [this]; decide
  · by_cases h : c = "zlib".toList
    · subst h; decide
    · have : pbNet.hash c = "cd".toList := if_neg h
      rw [this]; decide

example : (fetchAndCheck pbNet pbEntry "zlib".toList ⟨[], [], [], [("/d/z".toList, "junk".toList)], 0⟩).toOption.map (·.files) =
    some [("/d/z".toList, "zlib".toList)] := by decide +kernel

/-! ### A torn list -/

theorem writeList_append (a b : List Str) : writeList (a ++ b) = writeList a ++ writeList b := by
  induction a with
  | nil => rfl
  | cons x a ih => simp [writeList, ih]

/-- **C69 fails for a torn list**: a run stopped while it writes `.REPO` can leave any number of the first packages of the collection, and what is left is a
list like any other: it is read without complaint. -/
theorem C69_torn_reads_counterexample (hash sign : Str → Str) (a b : List PkgFile)
    (h : ∀ l ∈ writeRepo (a.map (PkgFile.asRec hash sign)), '\n' ∉ l ∧ '\x00' ∉ l ∧ l.length ≤ 8190) :
    ∃ t, t <+: repoText hash sign (a ++ b) ∧ parseFile t = some (writeRepo (a.map (PkgFile.asRec hash sign))) := by
  refine ⟨repoText hash sign a, ?_, C26_bytes_partial _ h⟩
  unfold repoText
  rw [List.map_append]
  have : writeRepo (a.map (PkgFile.asRec hash sign) ++ b.map (PkgFile.asRec hash sign)) =
      writeRepo (a.map (PkgFile.asRec hash sign)) ++ writeRepo (b.map (PkgFile.asRec hash sign)) := by
    unfold writeRepo; rw [List.flatMap_append]
  rw [this, writeList_append]
  exact List.prefix_append _ _

/-- The server of the torn run. -/
def tnNet : Nat → Str → Transfer := syServer "k".toList ('Z' :: writeList pbLines) "Zf".toList

/-- The depot after a run that was stopped in the middle of `.REPO`. -/
def tnFs : Fs := syncStopped tnNet syUnz "x".toList "24".toList [syDir] syOld 3 (some (writeList (pbLines.take 7)).length)

/-- The packages installed: `bash`, and `zlib` as a dependency, both up to date. -/
def tnDb : InstDb := [("bash".toList, ⟨"1".toList, 1, 1700000000, "base".toList, [], false, 1⟩), ("zlib".toList, ⟨"1".toList, 1, 1700000000, "base".toList, [], true, 1⟩)]

/-- **C69, the consequence**: after such a stop the next `cards upgrade` of a system that is up to date removes the dependency the torn list no longer names.
With the whole list there is nothing to do. -/
theorem C69_torn_upgrade_counterexample :
    (parseRepo defaultPkg [collOf "x".toList "24".toList tnFs syDir]).map
      (fun m => upgradePlan 0 ⟨false, false, true, false, false, true⟩ [] tnDb tnDb m) = some (.perform [] ["zlib".toList]) ∧
    (parseRepo defaultPkg [collOf "x".toList "24".toList (cardsSync true tnNet syUnz "x".toList "24".toList [syDir] syOld).1 syDir]).map
      (fun m => upgradePlan 0 ⟨false, false, true, false, false, true⟩ [] tnDb tnDb m) = some .upToDate := by
  decide +kernel

/-- **C69, the consequence of a new key with an old list**: no package the old list names passes the check any more, whatever its file is. -/
theorem C69_mixed_rejects_counterexample :
    (let fs := syncStopped (syServer "n".toList ('Z' :: writeList pbLines) "Zf".toList) syUnz "x".toList "24".toList [syDir]
        (cardsSync true tnNet syUnz "x".toList "24".toList [syDir] syOld).1 1 none
     (parseRepo defaultPkg [collOf "x".toList "24".toList fs syDir]).map (fun m => m.map (fun p => depotVerify pbVf fs p.2.dirName p.2.signature p.2.hash)) =
      some [some false, some false]) ∧
    (let fs := (cardsSync true tnNet syUnz "x".toList "24".toList [syDir] syOld).1
     (parseRepo defaultPkg [collOf "x".toList "24".toList fs syDir]).map (fun m => m.map (fun p => depotVerify pbVf fs p.2.dirName p.2.signature p.2.hash)) =
      some [some true, some true]) := by decide +kernel

/-! ### `cards repo` without a private key -/

theorem repoCheck_spec (cs : Str → Option Bool) (names l : List Str) (r : Option Str × Nat) (h : repoCheck cs names l = some r) :
    r.2 = names.length ∧ match r.1 with
      | none => ∀ x ∈ l, cs x = some true
      | some x => ∃ a b, l = a ++ x :: b ∧ (∀ y ∈ a, cs y = some true) ∧ cs x = some false := by
  induction l with
  | nil =>
    simp only [repoCheck, Option.some.injEq] at h
    subst h
    simp
  | cons n ns ih =>
    unfold repoCheck at h
    cases hn : cs n with
    | none => rw [hn] at h; simp at h
    | some b =>
      rw [hn] at h
      cases b with
      | false =>
        simp only [Option.some.injEq] at h
        subst h
        exact ⟨rfl, [], ns, rfl, by simp, hn⟩
      | true =>
        obtain ⟨h1, h2⟩ := ih h
        refine ⟨h1, ?_⟩
        cases hr : r.1 with
        | none =>
          rw [hr] at h2
          simp only [List.mem_cons, forall_eq_or_imp]
          exact ⟨hn, h2⟩
        | some x =>
          rw [hr] at h2
          obtain ⟨a, b, rfl, h3, h4⟩ := h2
          refine ⟨n :: a, b, rfl, ?_, h4⟩
          simp only [List.mem_cons, forall_eq_or_imp]
          exact ⟨hn, h3⟩

/-- **C72, part that holds**: without a private key, `cards repo` reports no package only when every package of the list has a valid signature, and a package
that it reports has a wrong one. -/
theorem C72_checked_partial (checkSign : Str → Option Bool) (names : List Str) (r : Option Str) (n : Nat) (h : repoCheck checkSign names names = some (r, n)) :
    (r = none → ∀ x ∈ names, checkSign x = some true) ∧ (∀ x, r = some x → x ∈ names ∧ checkSign x = some false) := by
  obtain ⟨-, h2⟩ := repoCheck_spec checkSign names names (r, n) h
  constructor
  · rintro rfl
    exact h2
  · rintro x rfl
    obtain ⟨a, b, e, -, h4⟩ := h2
    exact ⟨by rw [e]; simp, h4⟩

/-- **C72**: a wrong signature does not go unnoticed. -/
theorem C72_wrong_noticed (checkSign : Str → Option Bool) (names : List Str) (x : Str) (hx : x ∈ names) (hb : checkSign x = some false) (n : Nat) :
    repoCheck checkSign names names ≠ some (none, n) := by
  intro h
  have := (C72_checked_partial checkSign names none n h).1 rfl x hx
  rw [hb] at this
  cases this

example : repoCheck (fun x => some (decide (x ≠ "b".toList))) ["a".toList, "b".toList, "c".toList] ["a".toList, "b".toList, "c".toList] =
    some (some "b".toList, 3) := by decide

/-- **C72 fails for the summary**: the loop ends at the first wrong signature, and the line "All ... packages checked" counts the whole list. Of two bad packages
one is reported. -/
theorem C72_count_counterexample (checkSign : Str → Option Bool) (x : Str) (rest : List Str) (hb : checkSign x = some false) :
    repoCheck checkSign (x :: rest) (x :: rest) = some (some x, rest.length + 1) := by
  simp [repoCheck, hb]

end Cards.Props
