import Verif.Model.Base
import Verif.Model.Numbers
/-!
# The messages of the forum beside the pages of the site (/repo/src/mysql.cxx)

The data base is the tables the queries read; that the server answers a query with the rows asked for, in the order asked for, is trusted. A column is never NULL (in the tables of
the forum none of those read may be). `date` is `getDateFromEpoch`.
-/
namespace Cards

/-- A row of `smf_boards`, /repo/src/mysql.cxx:76-78. -/
structure BoardRow where
  id : Nat
  name : Str
  cat : Nat
deriving DecidableEq

/-- A row of `smf_categories`, /repo/src/mysql.cxx:101-103. -/
structure CatRow where
  id : Nat
  name : Str
deriving DecidableEq

/-- A row of `smf_members`, /repo/src/mysql.cxx:124-126; the second column, `member_name`, is read and not used. -/
structure MemberRow where
  id : Nat
  realName : Str
deriving DecidableEq

/-- A row of `smf_messages`, /repo/src/mysql.cxx:149-152; `guest` is the column `poster_name`, which is not asked for. -/
structure MsgRow where
  id : Nat
  board : Nat
  topic : Nat
  member : Nat
  time : Nat
  subject : Str
  icon : Str
  guest : Str
deriving DecidableEq

/-- The data base; `boardsOk` …: the server answers the query. -/
structure Forum where
  boards : List BoardRow
  cats : List CatRow
  members : List MemberRow
  messages : List MsgRow
  boardsOk : Bool := true
  catsOk : Bool := true
  membersOk : Bool := true
  messagesOk : Bool := true

/-- `order by id_msg DESC LIMIT 10`, /repo/src/mysql.cxx:149-152. -/
def newestRows (l : List MsgRow) : List MsgRow := (l.mergeSort (fun a b => decide (b.id ≤ a.id))).take 10

/-- `m_listOfBoards`, /repo/src/mysql.cxx:86-90. -/
def boardMap (l : List BoardRow) : List (Str × Str × Str) := l.foldl (fun m r => mset (dec r.id) (r.name, dec r.cat) m) []

/-- `m_listOfCategories`, /repo/src/mysql.cxx:111-113. -/
def catMap (l : List CatRow) : List (Str × Str) := l.foldl (fun m r => mset (dec r.id) r.name m) []

/-- `m_listOfMembers`, /repo/src/mysql.cxx:134-138. -/
def memberMap (l : List MemberRow) : List (Str × Str) := l.foldl (fun m r => mset (dec r.id) r.realName m) []

/-- The text for one message, /repo/src/mysql.cxx:39-59. -/
def postText (forum date category board author icon topic msg subject : Str) : Str :=
  "       <div class=\"post-time\">".toList ++ date ++ " UTC</div>\n       <div class=\"post-category\">".toList ++ category
  ++ ":</div>\n       <div class=\"post-subject\">".toList ++ board ++ "</div>\n       <div class=\"post-author\">".toList ++ author
  ++ "</div>\n       <img class=\"post-icon\" src=\"../../graphics/".toList ++ icon ++ ".gif\" alt=\"\" />\n       <a class=\"post-link\" href=\"".toList ++ forum
  ++ "/index.php?topic=".toList ++ topic ++ ".msg".toList ++ msg ++ "#msg".toList ++ msg ++ "\">\n    ".toList ++ subject ++ "\n      </a>\n\n   ".toList

/-- The line between two messages, /repo/src/mysql.cxx:63-65. -/
def postLine : Str := "      <hr align=\"center\" style=\"width: 50%;\">\n".toList

/-- The text for one row: a key that is not in a map gives an empty text (`operator[]`), /repo/src/mysql.cxx:39-59. -/
def showRow (F : Forum) (date : Nat → Str) (forum : Str) (m : MsgRow) : Str :=
  let board := (mget (boardMap F.boards) (dec m.board)).getD ([], [])
  postText forum (date (strtoul0 (dec m.time))) ((mget (catMap F.cats) board.2).getD []) board.1 ((mget (memberMap F.members) (dec m.member)).getD []) m.icon (dec m.topic) (dec m.id) m.subject

/-- The loop over `i`, /repo/src/mysql.cxx:37-67: `none` is the access past the end of `m_listOfMessages`, which is undefined. -/
def showLoop (show1 : MsgRow → Str) (l : List MsgRow) : Nat → Nat → Option Str
  | 0, _ => some []
  | n + 1, i => match l[i]? with
    | none => none
    | some m => match showLoop show1 l n (i + 1) with
      | none => none
      | some rest => some (show1 m ++ (if i + 1 < 10 then postLine else []) ++ rest)

/-- `lastPosts`, /repo/src/mysql.cxx:28-68: `none` is undefined behaviour. A query that fails has no result, and the result is used nevertheless (/repo/src/mysql.cxx:86, 111, 134, 160);
for a query that succeeds the empty message of `mysql_error` is printed, with its end of line (/repo/src/mysql.cxx:82-84, …: the test is the wrong way round). -/
def lastPosts (F : Forum) (date : Nat → Str) (forum : Str) : Option Str :=
  if F.boardsOk && F.catsOk && F.membersOk && F.messagesOk then
    (showLoop (showRow F date forum) (newestRows F.messages) 10 0).map ("\n\n\n\n".toList ++ ·)
  else none

end Cards
