import Verif.Model.Repo
import Verif.Model.RepoCmds
import Verif.Model.Conf
import Verif.Model.Argv
/-!
# `webcards`: the pages of the site (/repo/src/webcards.cxx, webrepo.cxx)

The program runs once per request (CGI). A character stands for one byte. What is printed is given by its lines. Not modelled: the fixed heading, menu
and footer around the content (`HEADERTEXT`, `MENUFR`, `MENUEN`, lines 385-453 and 549-566), which no request has an influence on, and the side bar of the
forum, which is commented out (447).
-/
namespace Cards

/-! ## The list of packages (/repo/src/webrepo.cxx) -/

/-- The members of `cards::pkg` that the site uses. -/
structure WebPkg where
  system : Str
  branch : Str
  collection : Str
  baseName : Str
  version : Str
  release : Nat
  description : Str
  build : Nat
deriving DecidableEq, Repr

/-- A configured directory and the content of its list `.REPO`; `none`: it cannot be opened. -/
structure WebColl where
  depot : Str
  collection : Str
  repo : Option Str
deriving DecidableEq, Repr

/-- The variables of `webrepo::parse` that live on from one collection to the next (/repo/src/webrepo.cxx:17-22), and `pkgName` (53). -/
structure WebSt where
  info : WebPkg
  version : Str
  name : Str
  map : List (Str × WebPkg)
deriving DecidableEq, Repr

/-- The letter of a line and its text, /repo/src/webrepo.cxx:82-103. `none`: `std::stoi` throws. -/
def WebSt.field (s : WebSt) (c : Char) (v : Str) : Option WebSt :=
  if c = 'N' then some { s with name := s.info.system ++ ' ' :: s.info.branch ++ ' ' :: v, info := { s.info with baseName := v } }
  else if c = 'V' then some { s with info := { s.info with version := v } }
  else if c = 'r' then
    match stoi10 v with
    | none => none
    | some n => some { s with info := { s.info with release := (n % 65536).toNat } }
  else if c = 'D' then some { s with info := { s.info with description := v } }
  else if c = 'B' then some { s with info := { s.info with build := strtoul0 v } }
  else some s

/-- One line: an empty one stores the record, /repo/src/webrepo.cxx:77-104. -/
def WebSt.line (s : WebSt) : Str → Option WebSt
  | [] => some { s with map := mset s.name s.info s.map }
  | c :: v => s.field c v

/-- The lines of a mapped file, /repo/src/webrepo.cxx:72-106; `cur` is the line read so far. `memchr(p, '\n', size)` searches `size` bytes
from `p` on, beyond the end of the mapping when the last line has no newline: `none`. -/
def webLines : Str → Str → Option (List Str)
  | [], [] => some []
  | _ :: _, [] => none
  | cur, c :: cs => if c = '\n' then (webLines [] cs).map (cur :: ·) else webLines (cur ++ [c]) cs

/-- The system and the branch told by the last component of the directory, /repo/src/webrepo.cxx:30-51; an unknown one changes nothing. -/
def WebSt.at (s : WebSt) (c : WebColl) : WebSt :=
  let version := if '/' ∈ c.depot then stripWhiteSpace ((c.depot.reverse.takeWhile (fun x => x ≠ '/')).reverse) else s.version
  let info :=
    if version = "systemd".toList then { s.info with system := "systemd".toList, branch := "systemd".toList }
    else if version = "rolling".toList then { s.info with system := "sys-v".toList, branch := "rolling".toList }
    else if version = "testingd".toList then { s.info with system := "systemd".toList, branch := "testingd".toList }
    else if version = "testing".toList then { s.info with system := "sys-v".toList, branch := "testing".toList }
    else s.info
  { s with version := version, info := { info with collection := c.collection }, name := [] }

/-- The end of a run of `webrepo::parse`: the list, or the end of the program (exception or access outside of the file). -/
inductive WebList where
  | packages (m : List (Str × WebPkg))
  | dies
deriving DecidableEq, Repr

/-- The loop over the collections, /repo/src/webrepo.cxx:25-109. A list that cannot be opened, and an empty one (`mmap` of 0 bytes fails), ends the function
(55-68). -/
def webParse (s : WebSt) : List WebColl → WebList
  | [] => .packages s.map
  | c :: cs =>
    match c.repo with
    | none => .packages s.map
    | some [] => .packages s.map
    | some text =>
      match webLines [] text with
      | none => .dies
      | some ls =>
        match ls.foldlM WebSt.line (s.at c) with
        | none => .dies
        | some s' => webParse s' cs

/-- `webrepo` with a fresh record; its numbers are not initialised (`junk`). -/
def webPackages (junk : Nat × Nat) (cs : List WebColl) : WebList :=
  webParse ⟨⟨[], [], [], [], [], junk.1, [], junk.2⟩, [], [], []⟩ cs

/-! ## The request -/

/-- `arguments_t`, /repo/src/webcards.h:33-40. -/
structure WebArgs where
  system : Str := []
  branch : Str := []
  doc : Str := []
  search : Str := []
  pkgSearch : Str := []
  type : Str := []
deriving DecidableEq, Repr

/-- `if (i.find(key) != npos) arguments.x = i.substr(pos + length)`. -/
def argAfter (key : Str) (i old : Str) : Str :=
  match cutFirst key i with
  | some (_, v) => v
  | none => old

/-- One parameter, /repo/src/webcards.cxx:129-154. -/
def WebArgs.take (a : WebArgs) (i : Str) : WebArgs where
  system := argAfter "system=".toList i a.system
  branch := argAfter "branch=".toList i a.branch
  doc := argAfter "page=".toList i a.doc
  search := argAfter "search=".toList i a.search
  pkgSearch := argAfter "searchpkg=".toList i a.pkgSearch
  type := argAfter "type=".toList i a.type

/-- `if (x.size() == 0) x = d`. -/
def orElse (x d : Str) : Str := if x = [] then d else x

/-- `parseArguments` /repo/src/webcards.cxx:121-162: the parameters in the order of the set. -/
def webArgs (query : Str) : WebArgs :=
  let a := (sofList (strtokAll ['&'] query)).foldl WebArgs.take { doc := "index".toList }
  { a with system := orElse a.system "all".toList, branch := orElse a.branch "systemd".toList, type := orElse a.type "pkg".toList }

/-! ## The search for packages -/

/-- The first piece of the text between delimiters; the text itself when there is none, /repo/src/webcards.cxx:269-282. -/
def firstPiece (c : Char) (s : Str) : Str := ((strtokAll [c] s).find? (fun i => i ≠ [])).getD s

/-- What is searched for, /repo/src/webcards.cxx:268-282. -/
def searchText (pkgSearch : Str) : Str := firstPiece '+' (firstPiece '%' pkgSearch)

/-- Does the site list this package? /repo/src/webcards.cxx:291-347. `group()` and `alias()` of these records are always empty, so that the two loops
330-345 do nothing. (The request is searched for when it has two characters or more, so that `search.size() == 0`, 305, does not occur.) -/
def webListed (a : WebArgs) (search : Str) (p : WebPkg) : Bool :=
  if a.type = "col".toList then
    convertToLowerCase search = p.collection && !(a.branch ≠ p.branch && a.branch ≠ "all".toList) &&
      !(a.system ≠ p.system && a.system ≠ "all".toList)
  else if search = [] then true
  else if a.branch ≠ p.branch && a.branch ≠ "all".toList then false
  else if a.system ≠ p.system && a.system ≠ "all".toList then false
  else (cutFirst (convertToLowerCase search) p.collection).isSome || (cutFirst (convertToLowerCase search) p.baseName).isSome ||
    (cutFirst (convertToLowerCase search) (convertToLowerCase p.description)).isSome

/-- The text of a row, `INSERTPACKAGE` /repo/src/webcards.h:12-26; `date` is `getDateFromEpoch`. -/
def webRow (date : Nat → Str) (p : WebPkg) : Str :=
  let place := p.collection ++ '/' :: p.baseName
  "<td>".toList ++ p.system ++ "</td>".toList ++ "<td>".toList ++ p.branch ++ "</td>".toList ++ "<td>".toList ++ p.collection ++ "</td>".toList ++
  "<td> <a href=\"https://github.com/NuTyX/".toList ++ p.system ++ "/tree/".toList ++ p.branch ++ '/' :: place ++ "\">".toList ++ p.baseName ++ "</a></td>".toList ++
  "<td> <a href=\"https://github.com/NuTyX/".toList ++ p.system ++ "/commits/".toList ++ p.branch ++ '/' :: place ++ "\">".toList ++ p.version ++ '-' :: itos p.release ++
  "</a></td>".toList ++ "<td>".toList ++ p.description ++ "</td>".toList ++ "<td>".toList ++ date p.build ++ "</td>".toList

/-- `listOfPackages`, /repo/src/webcards.cxx:288-347. -/
def webRows (date : Nat → Str) (a : WebArgs) (m : List (Str × WebPkg)) : List Str :=
  sofList ((m.filter (fun p => webListed a (searchText a.pkgSearch) p.2)).map (fun p => webRow date p.2))

/-- `searchpkg` /repo/src/webcards.cxx:163-228: the form. -/
def searchForm (a : WebArgs) : List Str :=
  ["  <form method=\"get\" action=\".\">".toList, "  <fieldset>".toList, "   <table>".toList, "    <tr class=\"even\">".toList,
   "     <td width=\"20%\">".toList, "      <h4>Type</h4>".toList, "     <td>".toList,
   (if a.type = "pkg".toList then "      <input type=\"radio\" name=\"type\" value=\"pkg\" checked=\"checked\"/> PACKAGE".toList
    else "      <input type=\"radio\" name=\"type\" value=\"pkg\" /> PACKAGE".toList),
   (if a.type = "col".toList then "      <input type=\"radio\" name=\"type\" value=\"col\" checked=\"checked\"/> COLLECTION".toList
    else "      <input type=\"radio\" name=\"type\" value=\"col\" /> COLLECTION".toList),
   "    <tr class=\"odd\">".toList, "     <td>".toList, "      <h4>Branch</h4>".toList, "     <td>".toList,
   (if a.branch = "systemd".toList then "      <input type=\"radio\" name=\"branch\" value=\"systemd\" checked=\"checked\" /> systemd".toList
    else "      <input type=\"radio\" name=\"branch\" value=\"systemd\" /> systemd".toList),
   "     <br>".toList,
   (if a.branch = "testingd".toList then "      <input type=\"radio\" name=\"branch\" value=\"testingd\" checked=\"checked\"/> testingd".toList
    else "      <input type=\"radio\" name=\"branch\" value=\"testingd\" /> testingd".toList),
   "     <br>".toList,
   (if a.branch = "all".toList then "      <input type=\"radio\" name=\"branch\" value=\"all\" checked=\"checked\"/> all".toList
    else "      <input type=\"radio\" name=\"branch\" value=\"all\" /> all".toList),
   "    <tr class=\"even\" valign=\"middle\">".toList, "     <td>".toList, "      <h4>Search ...</h4>".toList, "     <td>".toList,
   "        <input id=\"search-field\" type=\"text\" name=\"searchpkg\" size=\"18\" maxlength=\"200\" value=\"".toList ++ a.pkgSearch ++ "\" />".toList,
   "   </table>".toList, "  </fieldset>".toList, "  </form>".toList]

/-- The rows with their alternating classes, /repo/src/webcards.cxx:369-379. -/
def rowLines : Bool → List Str → List Str
  | _, [] => []
  | odd, r :: rs => (if odd then "<tr class=\"odd\">".toList else "<tr class=\"even\">".toList) :: r :: "</tr>".toList :: rowLines (!odd) rs

/-- The heading with the number, /repo/src/webcards.cxx:349-358. -/
def countLine (n : Nat) : Str :=
  if n = 0 then " <h2>no matching package found</h2>".toList
  else if n = 1 then " <h2>".toList ++ itos n ++ " package found</h2>".toList
  else " <h2>".toList ++ itos n ++ " packages founds</h2>".toList

/-- `getFormatedBinaryPackageList` /repo/src/webcards.cxx:266-384, the text. -/
def packageLines (date : Nat → Str) (a : WebArgs) (m : List (Str × WebPkg)) : List Str :=
  let rows := webRows date a m
  "<h1>NuTyX Packages</h1>".toList :: countLine rows.length :: searchForm a ++
  ["<table>".toList, "  <tr class=\"header\">".toList,
   "  <td>SYSTEM</td><td>BRANCH</td><td>COLLECTION</td><td>NAME</td><td>VERSION</td><td>DESCRIPTION</td><td>UPDATE</td>".toList,
   "<tbody id=\"fbody\">".toList] ++
  (if searchText a.pkgSearch ≠ [] then rowLines true rows else []) ++ [" </tbody>".toList, " </table>".toList]

/-! ## The documents -/

/-- `contentInfo_t`, /repo/src/webcards.h:28-32. -/
structure WebDoc where
  date : Str
  boardId : Str
  text : List Str
deriving DecidableEq, Repr

/-- `getContent` /repo/src/webcards.cxx:251-265: the files of `content/`, in the order of their names, with date and lines; the name before the first point
is the name of the document, what follows it the number of the board. -/
def getContent (files : List (Str × Str × List Str)) : List (Str × WebDoc) :=
  files.foldl (fun m f => mset (splitKeyValue f.1 '.').1 ⟨f.2.1, (splitKeyValue f.1 '.').2, f.2.2⟩ m) []

/-- The variables of `parseHTMLDelimitedList`, /repo/src/webcards.cxx:15-23. -/
structure TocSt where
  page : List Str
  body : List Str
  has : Bool
  ref : Nat
  prev : Nat
deriving DecidableEq, Repr

/-- The lists opened or closed in front of an entry, /repo/src/webcards.cxx:70-81. -/
def tocLists (prev level : Nat) : Str :=
  (List.replicate (level - prev) "<li>\n <ul class=\"hN\">".toList ++ List.replicate (prev - level) "  </ul>\n</li>".toList).flatten

/-- The entry of the table of contents, /repo/src/webcards.cxx:69-87. -/
def tocEntry (prev level ref : Nat) (title : Str) : Str :=
  tocLists prev level ++ "<li><a href=\"#".toList ++ itos ref ++ "\">".toList ++ title ++ "</a>".toList

/-- `Newline`, /repo/src/webcards.cxx:88-91. -/
def anchor (ref : Nat) : Str := "<a name=\"".toList ++ itos ref ++ "\"></a>".toList

/-- `line.substr(start, end - start)`, the end taken as in the code: `end` is the first `</` of the line, and may stand before `start`; the length is then
negative, that is very large, and the rest of the line is taken. -/
def titleOf (line : Str) (start : Nat) : Option Str :=
  match cutFirst ['<', '/'] line with
  | none => none
  | some (b, _) => some (if b.length < start then line.drop start else (line.drop start).take (b.length - start))

/-- One line, /repo/src/webcards.cxx:24-97, with the tag `<h`. The level is the character behind it; `char` is taken as unsigned. -/
def tocLine (title : Str) (s : TocSt) (line : Str) : TocSt :=
  match cutFirst ['<', 'h'] line with
  | none => if s.has then { s with body := s.body ++ [line] } else { s with page := s.page ++ [line] }
  | some (b, rest) =>
    let level := match rest with | [] => 0 | c :: _ => c.toNat
    if level = '1'.toNat then { s with page := s.page ++ [line] }
    else
      match cutFirst ['>'] ('h' :: rest) with
      | none => { s with page := s.page ++ [line] }
      | some (tag, _) =>
        let start := b.length + 1 + tag.length + 1
        match titleOf line start with
        | none => { s with prev := level }
        | some t =>
          let page := if s.has then s.page else
            s.page ++ ["<div class=\"toc\">\n <h2>".toList, title, "</h2>".toList, "  <ul class=\"h2\">".toList]
          { page := page ++ [tocEntry s.prev level (s.ref + 1) t], has := true, ref := s.ref + 1, prev := level,
            body := s.body ++ [line.take start ++ anchor (s.ref + 1) ++ line.drop start] }

/-- `parseHTMLDelimitedList(text, "<h", title)` /repo/src/webcards.cxx:10-109. -/
def tocPage (title : Str) (text : List Str) : List Str :=
  let s := text.foldl (tocLine title) ⟨[], [], false, 0, '2'.toNat⟩
  if s.has then s.page ++ ["</ul>\n</div>".toList] ++ s.body else s.page

/-- What the site has: its documents, its packages, the dates, the language and the text of the search box. -/
structure Site where
  french : Bool
  content : List (Str × WebDoc)
  packages : List (Str × WebPkg)
  date : Nat → Str
  now : Str

/-- `lastUpdate` /repo/src/webcards.cxx:244-250. -/
def lastUpdate (date : Str) : Str := "    <p class=\"updated\"> ".toList ++ date ++ " UTC</p>".toList

/-- `SEARCH` /repo/src/www/config_webcards.h:17-26 as one text. -/
def searchBox (french : Bool) : Str :=
  "   <div>\n  <form method=\"get\" action=\".\">\n     <fieldset>\n          <label for=\"search-field\">".toList ++
  (if french then "Recherche ...".toList else "Search ...".toList) ++
  "</label>\n          <input id=\"search-field\" type=\"text\" name=\"search\" size=\"18\" maxlength=\"200\" />\n     </fieldset>\n  </form>\n   </div>\n".toList

/-- The link to the board, /repo/src/webcards.cxx:513-537. -/
def boardLines (french : Bool) (id : Str) : List Str :=
  if id = [] then [] else
    ["<p>".toList, "<a href=\"https://".toList ++
      (if french then "forum.nutyx.org/index.php/board,".toList ++ id ++ "\">Soyez le premier à venir commenter le sujet.</a>".toList
       else "forums.nutyx.org/index.php/board,".toList ++ id ++ "\">Be the first to comment on this subject.</a>".toList)]

/-- The search in the documents, /repo/src/webcards.cxx:480-497. -/
def docSearch (content : List (Str × WebDoc)) (search : Str) : List Str :=
  content.flatMap (fun d => d.2.text.flatMap (fun j =>
    if d.1 = "packages".toList then []
    else if (cutFirst (convertToLowerCase search) (convertToLowerCase j)).isSome then
      ["<a href=\"?page=".toList ++ d.1 ++ "\">".toList ++ d.1 ++ "</a><br>...<br>".toList, j, "</div></pre>...<br><br>".toList]
    else []))

/-- The notes for texts that are too short, /repo/src/webcards.cxx:460-463, 474-478. -/
def shortNote (n : Nat) : Str :=
  "<div class=\"note\"><img alt=\"[Note]\" \t\t\tsrc=\"../graphics/note.gif\" />min ".toList ++ itos n ++ " characters...</div>".toList

/-- The content of the page for a request, /repo/src/webcards.cxx:455-547. -/
def webBody (site : Site) (query : Str) : List Str :=
  let a := webArgs query
  if a.pkgSearch ≠ [] then
    if a.pkgSearch.length < 2 then [shortNote 2]
    else lastUpdate site.now :: packageLines site.date a site.packages
  else if a.search ≠ [] then
    if a.search.length < 3 then [[], shortNote 3] else docSearch site.content a.search
  else if a.doc = "packages".toList then "<h1>NuTyX Packages</h1>".toList :: searchForm a
  else
    match mget site.content a.doc with
    | some d => searchBox site.french :: lastUpdate d.date :: tocPage (if site.french then "Sommaire".toList else "Contents".toList) d.text ++
        boardLines site.french d.boardId
    | none => ("<h1>".toList ++ a.doc ++ " is not existing yet</h1>".toList) ::
        (match mget site.content "under-construction".toList with | some d => d.text | none => [])

/-! ## The log of the visits -/

/-- A request at work in `visitOfPage`, /repo/src/webcards.cxx:110-120: it has found the end of the file (`fseek`) and writes its line there when the buffer
is written out (`fclose`). -/
inductive VisitEvent where
  /-- request `i` opens the file and goes to its end -/
  | seek (i : Nat)
  /-- request `i` closes the file: its line is written at the place it has found -/
  | write (i : Nat)
deriving DecidableEq, Repr

/-- Writing at an offset of a file that is at least so long. -/
def writeAt (off : Nat) (t file : Str) : Str := file.take off ++ t ++ file.drop (off + t.length)

/-- The line of a request, /repo/src/webcards.cxx:117: the time (its lower half, `%d`) and the request. -/
def visitLine (time query : Str) : Str := time ++ ',' :: query ++ ['\n']

/-- One event; `line i` is the line of request `i`, `offs` where the requests at work have found the end. -/
def visitStep (line : Nat → Str) (s : Str × List (Nat × Nat)) : VisitEvent → Str × List (Nat × Nat)
  | .seek i => (s.1, (i, s.1.length) :: s.2)
  | .write i =>
    match find s.2 i with
    | some off => (writeAt off (line i) s.1, s.2.filter (fun p => p.1 ≠ i))
    | none => s

/-- A run of several requests. The file must exist: `fopen` with `r+` does not create it (and without it nothing is logged). -/
def visitRun (line : Nat → Str) (file : Str) (es : List VisitEvent) : Str := (es.foldl (visitStep line) (file, [])).1

end Cards
