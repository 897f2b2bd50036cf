import Verif.Lemmas.Line
import Verif.Model.Remote
import Verif.Props.RecIter
/- Messages between client and daemon, for C56. -/
namespace Props
open Wv Wv.Tcl Wv.UniConn Spec.Conf Spec.Remote
open Spec.UniConn (Msg CStrings GoodEnd withoutBadEnd)

namespace Rem
open Wv.Remote
open Wv.TempGen (Value)

/-- The messages of the daemon. -/
inductive Reply where
  | ok
  | fail
  | child (k : List Byte) (b : Bool)
  | oneval (k v : List Byte)
  | val (k v : List Byte)
  | hello
  | notice (k : List Byte) (v : Option (List Byte))

def truth (b : Bool) : List Byte := if b then str ['T', 'R', 'U', 'E'] else str ['F', 'A', 'L', 'S', 'E']

def greeting : List (List Byte) :=
  [str ['U', 'n', 'i', 'C', 'o', 'n', 'f', ' ', 'S', 'e', 'r', 'v', 'e', 'r', ' ', 'r', 'e', 'a', 'd', 'y', '.'], str ['1', '9']]

/-- as a command with arguments -/
def Reply.msg : Reply → Msg
  | ok => (11, [])
  | fail => (12, [])
  | child k b => (13, [k, truth b])
  | oneval k v => (14, [k, v])
  | val k v => (15, [k, v])
  | hello => (17, greeting)
  | notice k v => (18, k :: v.toList)

/-- as it is written, without the newline -/
def Reply.text : Reply → List Byte
  | ok => name 11 ++ [32]
  | fail => name 12 ++ [32]
  | r => Uc.body r.msg

def Reply.bytes (r : Reply) : List Byte := r.text ++ [10]

/-- what the client does with it -/
def hand (c : Client) : Reply → Client
  | .ok => { c with cmdsuccess := true, cmdinprogress := false }
  | .fail => { c with result_key := none, cmdsuccess := false, cmdinprogress := false }
  | .child k b => { c with result_key := some k, result := some (truth b), cmdsuccess := true, cmdinprogress := false }
  | .oneval k v => { c with result_key := some k, result := some v, cmdsuccess := true, cmdinprogress := false }
  | .val k v => { c with result_list := c.result_list.map fun l => l ++ [(Key.parse k, v)] }
  | .hello => { c with version := 19 }
  | .notice k v => { c with deltas := c.deltas ++ [(Key.parse k, v)] }

/-- no NULs, and a good end -/
def Reply.Good (r : Reply) : Prop := CStrings r.msg ∧ GoodEnd r.msg

theorem line_ok : Ln.Line (name 11 ++ [32]) := by
  refine ⟨fun r => rfl, ⟨79, [75, 32], by decide +kernel, by decide, by decide⟩, by decide +kernel⟩

theorem line_fail : Ln.Line (name 12 ++ [32]) := by
  refine ⟨fun r => rfl, ⟨70, [65, 73, 76, 32], by decide +kernel, by decide, by decide⟩, by decide +kernel⟩

theorem Reply.line (r : Reply) (h : r.Good) : Ln.Line r.text := by
  cases r with
  | ok => exact line_ok
  | fail => exact line_fail
  | _ => exact Ln.line_body _ h.1

theorem separators_space : Spec.Tcl.Separators spaces [32] := by
  intro c hc
  simp at hc
  subst hc
  decide

theorem tail_space (as : List (List Byte)) (h : as ≠ []) : Uc.tail as = 32 :: encode spaces [32] as := by
  rw [Uc.tail_eq as h]
  congr 1
  clear h
  induction as with
  | nil => rfl
  | cons a as ih =>
    cases as with
    | nil => rfl
    | cons b bs =>
      show escape spaces a ++ spaces.headD 0 :: encode spaces spaces (b :: bs) = escape spaces a ++ [32].headD 0 :: encode spaces [32] (b :: bs)
      rw [ih]
      rfl

/-- what the client reads of the arguments -/
theorem decode_space (as : List (List Byte)) (hg : ∀ a, as.getLast? = some a → ¬ (Spec.Tcl.balanced 0 false a = false ∧ a.getLast? = some 10)) :
    decode [32] true (Uc.tail as) = as := by
  cases has : as with
  | nil => rw [decode_none (by simp [Uc.tail, getword, getwordRaw])]
  | cons a0 as0 =>
    rw [← has]
    have hne : as ≠ [] := by rw [has]; simp
    rw [tail_space as hne, decode_lead (by decide)]
    refine C16_list_roundtrip_partial spaces [32] separators_space (by decide) as fun w hw hb => hg w hw ⟨hb.1, hb.2.1⟩

theorem words_decode (p : List Byte) : words p = ((decode [32] true p).head?, (decode [32] true p)[1]?) := by
  unfold words
  cases h : getword [32] true p with
  | none => rw [decode_none h]; rfl
  | some x =>
    obtain ⟨w, r⟩ := x
    rw [decode_cons h]
    simp only
    cases h2 : getword [32] true r with
    | none => rw [decode_none h2]; rfl
    | some y =>
      obtain ⟨w2, r2⟩ := y
      rw [decode_cons h2]
      rfl

theorem words_tail (as : List (List Byte)) (hg : ∀ a, as.getLast? = some a → ¬ (Spec.Tcl.balanced 0 false a = false ∧ a.getLast? = some 10)) :
    words (Uc.tail as) = (as.head?, as[1]?) := by
  rw [words_decode, decode_space as hg]

/-- A reply is read as what it is. -/
theorem read_reply (r : Reply) (h : r.Good) : ∃ w p, getword spaces true r.text = some (w, p) ∧ lookup w = .cmd r.msg.1 ∧
    ∀ c : Client, handle c (.cmd r.msg.1) p = hand c r := by
  have hbody : ∀ m : Msg, getword spaces true (Uc.body m) = some (name m.1, Uc.tail m.2) := Uc.getword_name
  have hl : ∀ m : Msg, lookup (name m.1) = .cmd m.1 := fun m => Uc.lookup_name m.1
  cases r with
  | ok => exact ⟨name 11, [32], by decide +kernel, by decide +kernel, fun c => rfl⟩
  | fail => exact ⟨name 12, [32], by decide +kernel, by decide +kernel, fun c => rfl⟩
  | child k b =>
    refine ⟨_, _, hbody _, hl _, fun c => ?_⟩
    have := words_tail [k, truth b] h.2
    show takeResult c (words (Uc.tail [k, truth b])) = _
    rw [this]; rfl
  | oneval k v =>
    refine ⟨_, _, hbody _, hl _, fun c => ?_⟩
    have := words_tail [k, v] h.2
    show takeResult c (words (Uc.tail [k, v])) = _
    rw [this]; rfl
  | val k v =>
    refine ⟨_, _, hbody _, hl _, fun c => ?_⟩
    have := words_tail [k, v] h.2
    show (match words (Uc.tail [k, v]), c.result_list with
      | (some k, some v), some l => { c with result_list := some (l ++ [(Key.parse k, v)]) }
      | _, _ => c) = _
    rw [this]
    cases hrl : c.result_list with
    | none => obtain ⟨⟩ := c; simp only at hrl; subst hrl; rfl
    | some l => simp [hand, hrl]
  | hello =>
    refine ⟨_, _, hbody _, hl _, fun c => ?_⟩
    have := decode_space greeting h.2
    have hn : (Num.num ((greeting.drop 1).headD [])).getD 0 = 19 := by decide +kernel
    show (match (decode [32] true (Uc.tail greeting)).head? with
      | some server =>
        if server.take 7 = str ['U', 'n', 'i', 'C', 'o', 'n', 'f'] then
          { c with version := (Num.num (((decode [32] true (Uc.tail greeting)).drop 1).headD [])).getD 0 }
        else { c with cmdinprogress := false, cmdsuccess := false, conn := { c.conn with closed := true } }
      | none => { c with cmdinprogress := false, cmdsuccess := false, conn := { c.conn with closed := true } }) = _
    rw [this, hn]
    simp only [greeting, List.head?_cons]
    rw [if_pos (by decide +kernel)]
    rfl
  | notice k v =>
    refine ⟨_, _, hbody _, hl _, fun c => ?_⟩
    have := words_tail (k :: v.toList) h.2
    show { c with deltas := c.deltas ++ [(Key.parse ((words (Uc.tail (k :: v.toList))).1.getD []), (words (Uc.tail (k :: v.toList))).2)] } = _
    rw [this]
    cases v <;> rfl

/-- the client looks at the connection -/
theorem callback_spec (future : List Byte) (rs : List Reply) (hr : ∀ r ∈ rs, r.Good) (c : Client)
    (h : Ln.Inv (rs.map Reply.text) future c.conn) :
    ((∃ conn, callback c = { c with conn := conn } ∧ Ln.Inv (rs.map Reply.text) future conn) ∧
      ∀ r rs', rs = r :: rs' → future ≠ []) ∨
    (∃ r rs' conn, rs = r :: rs' ∧ callback c = hand { c with conn := conn } r ∧ Ln.Inv (rs'.map Reply.text) future conn) := by
  have hline : ∀ b ∈ rs.map Reply.text, Ln.Line b := by
    intro b hb
    obtain ⟨r, h1, rfl⟩ := List.mem_map.mp hb
    exact r.line (hr r h1)
  rcases Ln.readmsg_inv future _ hline _ c.conn rfl h with ⟨h1, h2, h3⟩ | ⟨b, bs', hb, h1, h2⟩
  · left
    refine ⟨?_, ?_⟩
    · refine ⟨(readmsg c.conn).2, ?_, h2⟩
      unfold callback readcmd
      rcases hm : readmsg c.conn with ⟨_ | x, c'⟩
      · simp [handle]
      · rw [hm] at h1; simp at h1
    · intro r rs' e hf
      have := h3 r.text (rs'.map Reply.text) (by rw [e]; rfl)
      rw [hf] at this
      simp at this
  · right
    cases rs with
    | nil => simp at hb
    | cons r rs' =>
      simp only [List.map_cons, List.cons.injEq] at hb
      obtain ⟨rfl, rfl⟩ := hb
      obtain ⟨w, p, g1, g2, g3⟩ := read_reply r (hr r (by simp))
      refine ⟨r, rs', { (readmsg c.conn).2 with payloadbuf := p }, rfl, ?_, h2⟩
      unfold callback readcmd
      rcases hm : readmsg c.conn with ⟨_ | x, c'⟩
      · rw [hm] at h1; simp at h1
      · rw [hm] at h1
        simp only [Option.some.injEq] at h1
        subst h1
        simp only [readarg, g1, g2]
        exact g3 _

/-- a request as a command with arguments -/
def reqMsg : Op → Msg
  | .get k => (1, [written k])
  | .set k v => (2, [written k, v])
  | .remove k => (4, [written k])
  | .haschildren k => (6, [written k])
  | .iterator k => (5, [written k, str ['0']])
  | .commit => (7, [])
  | .refresh => (8, [])

theorem printable_written (k : Text) : Key.printable (Key.parse k) = written k := by
  rw [Key.parse_eq, Key.printable_mk _ _ (Key.dir_names k)]
  rfl

theorem escape_zero : escape spaces (str ['0']) = str ['0'] := by decide +kernel

theorem request_eq (op : Op) : request op = Uc.body (reqMsg op) ++ [10] := by
  cases op <;> simp only [request, reqMsg, ← printable_written] <;> rw [← Uc.writecmd_body] <;> simp [payload, spacecat, escape_zero]

theorem fits_good {a : List Byte} (h : Fits a) : ¬ (Spec.Tcl.balanced 0 false a = false ∧ a.getLast? = some 10) := h.2

theorem req_good (op : Op) (h : Plain op) : CStrings (reqMsg op) ∧ GoodEnd (reqMsg op) := by
  have one : ∀ (c : Fin 19) (a : List Byte), Fits a → CStrings (c, [a]) ∧ GoodEnd (c, [a]) := by
    intro c a ha
    refine ⟨fun x hx => ?_, fun x hx => ?_⟩
    · simp at hx; subst hx; exact ha.1
    · simp at hx; subst hx; exact ha.2
  cases op with
  | get k => exact one _ _ h
  | set k v =>
    refine ⟨fun x hx => ?_, fun x hx => ?_⟩
    · simp [reqMsg] at hx
      rcases hx with rfl | rfl
      · exact h.1.1
      · exact h.2.1
    · simp [reqMsg] at hx; subst hx; exact h.2.2
  | remove k => exact one _ _ h.1
  | haschildren k => exact one _ _ h
  | iterator k =>
    refine ⟨fun x hx => ?_, fun x hx => ?_⟩
    · simp [reqMsg] at hx
      rcases hx with rfl | rfl
      · exact h.1.1
      · decide +kernel
    · simp [reqMsg] at hx; subst hx; decide +kernel
  | commit => exact ⟨by intro x hx; simp [reqMsg] at hx, by intro x hx; simp [reqMsg] at hx⟩
  | refresh => exact ⟨by intro x hx; simp [reqMsg] at hx, by intro x hx; simp [reqMsg] at hx⟩

theorem withoutBadEnd_good {m : Msg} (h : GoodEnd m) : withoutBadEnd m.2 = m.2 := by
  unfold withoutBadEnd
  unfold GoodEnd at h
  cases hl : m.2.getLast? with
  | none => rfl
  | some a => simp only; rw [if_neg (h a hl)]

theorem readargs (p : List Byte) (c : Conn) (h : c.payloadbuf = p) : (readarg c).1 = (decode spaces true p).head? ∧
    (readarg (readarg c).2).1 = (decode spaces true p)[1]? ∧ ∃ q, (readarg (readarg c).2).2 = { c with payloadbuf := q } := by
  subst h
  cases h1 : getword spaces true c.payloadbuf with
  | none =>
    have e : readarg c = (none, c) := by simp [readarg, h1]
    rw [e, decode_none h1]
    simp only [e]
    exact ⟨rfl, rfl, c.payloadbuf, rfl⟩
  | some x =>
    obtain ⟨w, r⟩ := x
    have e : readarg c = (some w, { c with payloadbuf := r }) := by simp [readarg, h1]
    rw [e, decode_cons h1]
    simp only
    cases h2 : getword spaces true r with
    | none =>
      have e2 : readarg { c with payloadbuf := r } = (none, { c with payloadbuf := r }) := by simp [readarg, h2]
      rw [e2, decode_none h2]
      exact ⟨rfl, rfl, r, rfl⟩
    | some y =>
      obtain ⟨w2, r2⟩ := y
      have e2 : readarg { c with payloadbuf := r } = (some w2, { c with payloadbuf := r2 }) := by simp [readarg, h2]
      rw [e2, decode_cons h2]
      exact ⟨rfl, rfl, r2, rfl⟩

/-- the daemon looks at the connection -/
theorem execute_spec {σ : Type} (I : IGen σ) (n : Nat) (s : σ) (future : List Byte) (ops : List Op) (hp : ∀ op ∈ ops, Plain op) (d : Conn)
    (h : Ln.Inv (ops.map fun op => Uc.body (reqMsg op)) future d) :
    ((readcmd d).1 = .none ∧ (∃ d', execute I n s d = (d', s, []) ∧ Ln.Inv (ops.map fun op => Uc.body (reqMsg op)) future d') ∧
      ∀ op ops', ops = op :: ops' → future ≠ []) ∨
    (∃ op ops' d', ops = op :: ops' ∧ (readcmd d).1 ≠ .none ∧ Ln.Inv (ops'.map fun op => Uc.body (reqMsg op)) future d' ∧
      execute I n s d = (d', serve I n s (.cmd (reqMsg op).1) (name (reqMsg op).1) (reqMsg op).2.head? (reqMsg op).2[1]?)) := by
  have hline : ∀ b ∈ ops.map (fun op => Uc.body (reqMsg op)), Ln.Line b := by
    intro b hb
    obtain ⟨r, h1, rfl⟩ := List.mem_map.mp hb
    exact Ln.line_body _ (req_good r (hp r h1)).1
  rcases Ln.readmsg_inv future _ hline _ d rfl h with ⟨h1, h2, h3⟩ | ⟨b, bs', hb, h1, h2⟩
  · left
    have hrc : readcmd d = (.none, [], (readmsg d).2) := by
      unfold readcmd
      rcases hm : readmsg d with ⟨_ | x, c'⟩
      · rfl
      · rw [hm] at h1; simp at h1
    refine ⟨by rw [hrc], ⟨(readmsg d).2, ?_, h2⟩, ?_⟩
    · unfold execute; rw [hrc]; simp
    · intro r rs' e hf
      have := h3 _ _ (by rw [e]; rfl)
      rw [hf] at this
      simp at this
  · right
    cases ops with
    | nil => simp at hb
    | cons op ops' =>
      simp only [List.map_cons, List.cons.injEq] at hb
      obtain ⟨rfl, rfl⟩ := hb
      have hg := req_good op (hp op (by simp))
      have hrc : readcmd d = (.cmd (reqMsg op).1, name (reqMsg op).1, { (readmsg d).2 with payloadbuf := Uc.tail (reqMsg op).2 }) := by
        unfold readcmd
        rcases hm : readmsg d with ⟨_ | x, c'⟩
        · rw [hm] at h1; simp at h1
        · rw [hm] at h1
          simp only [Option.some.injEq] at h1
          subst h1
          simp only [readarg, Uc.getword_name, Uc.lookup_name]
      obtain ⟨a1, a2, q, a3⟩ := readargs (Uc.tail (reqMsg op).2) { (readmsg d).2 with payloadbuf := Uc.tail (reqMsg op).2 } rfl
      rw [Uc.decode_tail, withoutBadEnd_good hg.2] at a1 a2
      refine ⟨op, ops', { (readmsg d).2 with payloadbuf := q }, rfl, by rw [hrc]; simp, h2, ?_⟩
      unfold execute
      rw [hrc]
      simp only [reduceCtorEq, if_false, a1, a2, a3]

/-! Removing -/

theorem white_isspace (c : Byte) : isspace c = white c := by
  revert c; apply forall_byte; decide +kernel

theorem blank_other (l : List Byte) (h : ∀ c, l.head? = some c → c ≠ 47) : blankSlashes l = l := by
  match l with
  | [] => rfl
  | [c] => rfl
  | c :: d :: l =>
    have := h c rfl
    simp [blankSlashes, this]

theorem removeKey_eq (k : Text) (h : ∀ c, (Spec.Path.write (Spec.Path.names k) false).getLast? = some c → white c = false) :
    removeKey (Key.parse k) = Key.parse (Spec.Path.write (Spec.Path.names k) false) := by
  unfold removeKey
  rw [printable_written, written]
  have hl := Key.join_last _ (Key.names_ok k)
  have hb : Spec.Path.write (Spec.Path.names k) (Spec.Path.dir k) =
      Spec.Path.write (Spec.Path.names k) false ++ if Spec.Path.dir k then [Spec.Path.slash] else [] := by simp [Spec.Path.write]
  rw [hb]
  have hl : ∀ c, (Spec.Path.write (Spec.Path.names k) false).getLast? = some c → c ≠ 47 := by
    intro c hc e
    subst e
    simp [Spec.Path.write] at hc
    exact hl hc
  have hn : Spec.Path.dir k = true → Spec.Path.write (Spec.Path.names k) false ≠ [] := by
    intro hd e
    have h1 := Key.names_write (Spec.Path.names k) false (Key.names_ok k)
    rw [e] at h1
    exact Key.dir_names k hd (by rw [← h1]; rfl)
  generalize Spec.Path.write (Spec.Path.names k) false = W at *
  have hb1 : blankSlashes W.reverse = W.reverse := blank_other _ (by intro c hc; rw [List.head?_reverse] at hc; exact hl c hc)
  have hd1 : W.reverse.dropWhile isspace = W.reverse := by
    cases hr : W.reverse with
    | nil => rfl
    | cons c l =>
      have : W.getLast? = some c := by rw [← List.head?_reverse, hr]; rfl
      rw [List.dropWhile_cons, white_isspace, h c this]
      rfl
  cases hd : Spec.Path.dir k with
  | false =>
    simp only [Bool.false_eq_true, if_false, List.append_nil]
    rw [hb1, hd1, List.reverse_reverse]
  | true =>
    simp only [if_true, List.reverse_append, List.reverse_singleton, List.singleton_append]
    have e : blankSlashes (Spec.Path.slash :: W.reverse) = 32 :: W.reverse := by
      cases hr : W.reverse with
      | nil => exact absurd (by simpa using hr) (hn hd)
      | cons c l =>
        rw [hr] at hb1
        show (if Spec.Path.slash == 47 then 32 :: blankSlashes (c :: l) else Spec.Path.slash :: c :: l) = _
        rw [hb1]; rfl
    rw [e, List.dropWhile_cons, show isspace 32 = true from by decide, if_pos rfl, hd1, List.reverse_reverse]

theorem join_more (ns : List Seg) (n : Seg) (h : ns ≠ []) :
    Spec.Split.join [Spec.Path.slash] (ns ++ [n]) = Spec.Split.join [Spec.Path.slash] ns ++ Spec.Path.slash :: n := by
  induction ns with
  | nil => exact absurd rfl h
  | cons a ns ih =>
    cases ns with
    | nil => simp [Spec.Split.join]
    | cons b ns =>
      have := ih (by simp)
      have e1 : ∀ l, Spec.Split.join [Spec.Path.slash] (a :: b :: l) = a ++ Spec.Path.slash :: Spec.Split.join [Spec.Path.slash] (b :: l) := by
        intro l; simp [Spec.Split.join]
      simp only [List.cons_append] at this ⊢
      rw [e1, this, e1]
      simp

theorem dropWhile_all {p : Byte → Bool} {l : List Byte} (h : ∀ c ∈ l, p c = true) : l.dropWhile p = [] := by
  induction l with
  | nil => rfl
  | cons a l ih => rw [List.dropWhile_cons, h a (by simp)]; exact ih fun c hc => h c (by simp [hc])

theorem getdirname_write (ns : List Seg) (n : Seg) (hns : Key.Names ns) (hn : n ≠ [] ∧ Spec.Path.slash ∉ n) :
    getdirname (Spec.Path.write (ns ++ [n]) false) = if ns = [] then [46] else Spec.Path.write ns false := by
  obtain ⟨hn1, hn2⟩ := hn
  have hr : n.reverse.dropWhile (· == 47) = n.reverse := by
    cases hr : n.reverse with
    | nil => rfl
    | cons c l =>
      have : c ≠ Spec.Path.slash := by
        rintro rfl
        exact hn2 (List.mem_reverse.mp (by rw [hr]; simp))
      have : (c == 47) = false := by simpa [Spec.Path.slash] using this
      simp [List.dropWhile_cons, this]
  have hd : n.reverse.dropWhile (· != 47) = [] := by
    apply dropWhile_all
    intro c hc
    have : c ≠ Spec.Path.slash := by rintro rfl; exact hn2 (List.mem_reverse.mp hc)
    simpa [Spec.Path.slash] using this
  by_cases hz : ns = []
  · subst hz
    simp only [if_true]
    have e : Spec.Path.write ([] ++ [n]) false = n := by simp [Spec.Path.write, Spec.Split.join]
    rw [e]
    unfold getdirname
    simp only [hr, List.reverse_reverse]
    have h1 : n.isEmpty = false := by cases n <;> simp_all
    have h2 : n.contains 47 = false := by simpa [Spec.Path.slash] using hn2
    rw [h1, h2]
    rfl
  · rw [if_neg hz]
    have e : Spec.Path.write (ns ++ [n]) false = Spec.Path.write ns false ++ Spec.Path.slash :: n := by
      simp [Spec.Path.write, join_more ns n hz]
    have hne : Spec.Path.write ns false ≠ [] := by
      intro e
      have h1 := Key.names_write ns false hns
      rw [e] at h1
      exact hz (by rw [← h1]; rfl)
    rw [e]
    generalize Spec.Path.write ns false = W at *
    unfold getdirname
    have e1 : (W ++ Spec.Path.slash :: n).reverse = n.reverse ++ (Spec.Path.slash :: W.reverse) := by simp
    have e2 : (n.reverse ++ (Spec.Path.slash :: W.reverse)).dropWhile (· == 47) = n.reverse ++ (Spec.Path.slash :: W.reverse) := by
      cases hr' : n.reverse with
      | nil => exact absurd (by simpa using hr') hn1
      | cons c l =>
        rw [hr'] at hr
        have : (c == 47) = false := by
          cases h : (c == 47) with
          | false => rfl
          | true =>
            have : c = Spec.Path.slash := by simpa [Spec.Path.slash] using h
            subst this
            exact absurd (List.mem_reverse.mp (by rw [hr']; simp)) hn2
        simp [List.dropWhile_cons, this]
    have e3 : (n.reverse ++ (Spec.Path.slash :: W.reverse)).dropWhile (· != 47) = Spec.Path.slash :: W.reverse := by
      rw [List.dropWhile_append, hd]
      simp [Spec.Path.slash]
    simp only [e1, e2, List.reverse_reverse]
    have e4 : (n.reverse ++ (Spec.Path.slash :: W.reverse)).reverse = W ++ Spec.Path.slash :: n := by simp
    simp only [e4, e1, e3]
    have h1 : (W ++ Spec.Path.slash :: n).isEmpty = false := by simp
    have h2 : (W ++ Spec.Path.slash :: n).contains 47 = true := by simp [Spec.Path.slash]
    have h3 : W.isEmpty = false := by cases W <;> simp_all
    rw [h1, h2]
    simp [hne]

section
open Gens
open Wv.Key (fold mk Names)
variable {σ : Type} (I : IGen σ) (Rep : σ → Spec.Conf.State → Prop) (hI : Behaves I Rep)

theorem place_write (k : Text) : place (Spec.Path.write (Spec.Path.names k) false) = place k := by
  rw [place, Key.names_write _ _ (Key.names_ok k), place]

/-- The iterator comes to these keys. -/
def Ready (s : σ) (it : RecIter.It) (top : Key) : List Key → Prop
  | [] => (RecIter.next I s it).2 = false
  | x :: rest => RecIter.next I s it = (⟨top, [(some x, rest)], [], true⟩, true)

theorem ready_gone (s : σ) (top : Key) (x : Key) (rest : List Key) (hx : Rec.One x)
    (h : I.iterator s (Key.join top x) = none ∨ I.iterator s (Key.join top x) = some []) :
    Ready I s ⟨top, [(some x, rest)], [], true⟩ top rest := by
  have hj : Key.join [] x = x := by simpa using Rec.join_one (c := []) (by simp [Names]) hx
  have ha : Key.append [] x = x := by simpa using Rec.append_one (c := []) (by simp [Names]) hx
  have hrl : Key.removelast x 1 = [] := by simpa using Rec.removelast_one (c := []) (by simp [Names]) hx
  have e : RecIter.next I s ⟨top, [(some x, rest)], [], true⟩ = RecIter.advance top false [(some x, rest)] [] := by
    rcases h with h | h
    · simp [RecIter.next, RecIter.descend, RecIter.firstKey, hj, RecIter.sub, h]
    · simp [RecIter.next, RecIter.descend, RecIter.firstKey, hj, RecIter.sub, h, ha, RecIter.advance, hrl]
  cases rest with
  | nil => simp [Ready, e, RecIter.advance]
  | cons y rest => simp [Ready, e, RecIter.advance]

theorem prefix_one {p : Place} {a b : Text} (h : p ++ [a] <+: p ++ [b]) : a = b := by
  have := (List.prefix_append_right_inj p).mp h
  simpa using this

include hI in
theorem remove_loop (kk : Text) (hd : Spec.Path.dir kk = false) (hdot : Spec.Path.names kk ≠ [[46]]) : ∀ (rest : List Key) (s : σ) (m : Spec.Conf.State) (it : RecIter.It)
    (single : Bool), Rep s m → Ready I s it (Key.parse kk) rest →
    (∀ q, place kk <+: q → q ≠ place kk → m q ≠ none → ∃ x ∈ rest, place kk ++ fold x <+: q) →
    (∀ x ∈ rest, Rec.One x ∧ m (place kk ++ fold x) ≠ none) → (rest.map fold).Nodup →
    ∃ s', (∀ n, rest.length < n → removeLoop I (Key.parse kk) n s it single = (s', single && rest.isEmpty)) ∧
      Rep s' (if rest = [] then m else fun q => if place kk <+: q then none else m q) := by
  intro rest
  induction rest with
  | nil =>
    intro s m it single hs hr _ _ _
    refine ⟨s, ?_, by simpa using hs⟩
    intro n hn
    obtain ⟨n, rfl⟩ : ∃ f, n = f + 1 := ⟨n - 1, by simp at hn; omega⟩
    have hr : (RecIter.next I s it).2 = false := hr
    simp [removeLoop, hr]
  | cons x rest ih =>
    intro s m it single hs hr hcov hmem hnd
    have hx := (hmem x (by simp)).1
    have hr : RecIter.next I s it = (⟨Key.parse kk, [(some x, rest)], [], true⟩, true) := hr
    have hkey : RecIter.key ⟨Key.parse kk, [(some x, rest)], [], true⟩ = x := by
      simpa [RecIter.key, RecIter.firstKey] using Rec.join_one (c := []) (by simp [Names]) hx
    have hx0 : x ≠ [] := by obtain ⟨a, rfl, -⟩ := hx; simp
    obtain ⟨t1, t2, t3⟩ := Rec.join_top kk hx.names hx0
    have hs1 := hI.set s m hs (Mounts.path (Spec.Path.names kk ++ x)) none
    rw [← t1] at hs1
    have em1 : Spec.Conf.set m (Mounts.path (Spec.Path.names kk ++ x)) none = fun q => if place kk ++ fold x <+: q then none else m q := by
      simp only [Spec.Conf.set, t2]
    rw [em1] at hs1
    -- the parent
    have hsect : ∃ t, (if getdirname (Key.printable (Key.join (Key.parse kk) x)) = [46] then [] else Key.parse (getdirname (Key.printable (Key.join (Key.parse kk) x)))) = Key.parse t ∧
        place t = place kk := by
      obtain ⟨a, rfl, ha⟩ := hx
      have hnm : Names (Spec.Path.names kk ++ [a]) := (Key.names_ok kk).append (by simpa [Names] using ha)
      have e : Key.printable (Key.join (Key.parse kk) [a]) = Spec.Path.write (Spec.Path.names kk ++ [a]) false := by
        rw [t1, (Mounts.path_spec _ hnm).1]
        have := Key.printable_mk (Spec.Path.names kk ++ [a]) false (by simp)
        simpa [mk] using this
      rw [e, getdirname_write _ _ (Key.names_ok kk) ha]
      by_cases hz : Spec.Path.names kk = []
      · refine ⟨[], ?_, ?_⟩
        · rw [if_pos hz]; rfl
        · simp [place, hz, Key.names_nil]
      · rw [if_neg hz]
        refine ⟨Spec.Path.write (Spec.Path.names kk) false, ?_, place_write kk⟩
        rw [if_neg]
        intro h
        have h1 := Key.names_write (Spec.Path.names kk) false (Key.names_ok kk)
        rw [h] at h1
        exact hdot (by rw [← h1]; decide +kernel)
    obtain ⟨t, ht1, ht2⟩ := hsect
    have hch := (hI.reads _ _ hs1).haschildren t
    rw [ht2] at hch
    -- the children that are left
    have hgone : I.iterator (I.set s (Key.join (Key.parse kk) x) none) (Key.join (Key.parse kk) x) = none ∨
        I.iterator (I.set s (Key.join (Key.parse kk) x) none) (Key.join (Key.parse kk) x) = some [] := by
      have := (hI.reads _ _ hs1).iterator (Mounts.path (Spec.Path.names kk ++ x))
      rw [← t1, t2] at this
      cases hit : I.iterator (I.set s (Key.join (Key.parse kk) x) none) (Key.join (Key.parse kk) x) with
      | none => exact Or.inl rfl
      | some r =>
        rw [hit] at this
        right
        cases r with
        | nil => rfl
        | cons z r =>
          exfalso
          obtain ⟨h1, h2, h3⟩ := this
          obtain ⟨⟨n', e, _⟩, hv⟩ := h2 z (by simp)
          obtain ⟨v, hv⟩ := Option.ne_none_iff_exists'.mp hv
          have := (h3 (n'.map tolower) v).mpr ⟨z, by simp, by rw [e]; rfl, hv⟩
          simp only [List.append_assoc, List.prefix_append_right_inj, List.prefix_append, if_true] at this
          cases this
    cases rest with
    | nil =>
      have hno : I.haschildren (I.set s (Key.join (Key.parse kk) x) none) (Key.parse t) = false := by
        refine Bool.eq_false_iff.mpr fun h => ?_
        obtain ⟨a, ha⟩ := hch.mp h
        split at ha
        · exact ha rfl
        · rename_i hp
          obtain ⟨y, hy, hy2⟩ := hcov _ (List.prefix_append _ _) (by simp) ha
          simp at hy
          subst hy
          exact hp hy2
      have hs2 := hI.set _ _ hs1 t none
      obtain ⟨s', h1, h2⟩ := ih (I.set (I.set s (Key.join (Key.parse kk) x) none) (Key.parse t) none) _ ⟨Key.parse kk, [(some x, [])], [], true⟩ false hs2
        (ready_gone I _ _ x [] hx (by
          have := (hI.reads _ _ hs2).iterator (Mounts.path (Spec.Path.names kk ++ x))
          rw [← t1, t2] at this
          cases hit : I.iterator (I.set (I.set s (Key.join (Key.parse kk) x) none) (Key.parse t) none) (Key.join (Key.parse kk) x) with
          | none => exact Or.inl rfl
          | some r =>
            rw [hit] at this
            right
            cases r with
            | nil => rfl
            | cons z r =>
              exfalso
              obtain ⟨h1, h2, h3⟩ := this
              obtain ⟨⟨n', e, _⟩, hv⟩ := h2 z (by simp)
              obtain ⟨v, hv⟩ := Option.ne_none_iff_exists'.mp hv
              have := (h3 (n'.map tolower) v).mpr ⟨z, by simp, by rw [e]; rfl, hv⟩
              simp only [Spec.Conf.set, ht2, List.append_assoc, List.prefix_append, if_true] at this
              cases this))
        (by
          intro q hq _ hq2
          exfalso
          apply hq2
          simp [Spec.Conf.set, ht2, hq])
        (by simp) (by simp)
      refine ⟨s', ?_, ?_⟩
      · intro n hn
        obtain ⟨n, rfl⟩ : ∃ f, n = f + 1 := ⟨n - 1, by simp at hn; omega⟩
        rw [removeLoop]
        simp only [hr, if_true, hkey, ht1, hno, Bool.not_false]
        rw [h1 n (by simpa using hn)]
        simp
      · simp only [if_true] at h2
        simp only [reduceCtorEq, if_false]
        have e : Spec.Conf.set (fun q => if place kk ++ fold x <+: q then none else m q) t none = fun q => if place kk <+: q then none else m q := by
          funext q
          simp only [Spec.Conf.set, ht2]
          by_cases hq : place kk <+: q
          · simp [hq]
          · have : ¬ place kk ++ fold x <+: q := fun h => hq ((List.prefix_append _ _).trans h)
            simp [hq, this]
        rw [e] at h2
        exact h2
    | cons y rest =>
      have hnd' : fold x ∉ (y :: rest).map fold ∧ ((y :: rest).map fold).Nodup := by simpa using hnd
      have hother : ∀ z ∈ y :: rest, ¬ place kk ++ fold x <+: place kk ++ fold z := by
        intro z hz h
        obtain ⟨a, rfl, -⟩ := hx
        obtain ⟨b, rfl, -⟩ := (hmem z (by simp [hz])).1
        have := prefix_one (a := a.map tolower) (b := b.map tolower) h
        exact hnd'.1 (List.mem_map.mpr ⟨_, hz, by simp [fold, this]⟩)
      have hyes : I.haschildren (I.set s (Key.join (Key.parse kk) x) none) (Key.parse t) = true := by
        refine hch.mpr ?_
        obtain ⟨b, hb, -⟩ := (hmem y (by simp)).1
        refine ⟨b.map tolower, ?_⟩
        have h1 := hother y (by simp)
        have h2 := (hmem y (by simp)).2
        have e : fold y = [b.map tolower] := by rw [hb]; rfl
        rw [e] at h1 h2
        simp only [h1, if_false]
        exact h2
      obtain ⟨s', h1, h2⟩ := ih (I.set s (Key.join (Key.parse kk) x) none) _ ⟨Key.parse kk, [(some x, y :: rest)], [], true⟩ false hs1
        (ready_gone I _ _ x (y :: rest) hx hgone)
        (by
          intro q hq hq1 hq2
          split at hq2
          · exact absurd rfl hq2
          · rename_i hp
            obtain ⟨z, hz, hz2⟩ := hcov q hq hq1 hq2
            rcases List.mem_cons.mp hz with rfl | hz
            · exact absurd hz2 hp
            · exact ⟨z, hz, hz2⟩)
        (by
          intro z hz
          refine ⟨(hmem z (by simp [hz])).1, ?_⟩
          simp only [hother z hz, if_false]
          exact (hmem z (by simp [hz])).2)
        hnd'.2
      refine ⟨s', ?_, ?_⟩
      · intro n hn
        obtain ⟨n, rfl⟩ : ∃ f, n = f + 1 := ⟨n - 1, by simp at hn; omega⟩
        rw [removeLoop]
        simp only [hr, if_true, hkey, ht1, hyes, Bool.not_true, Bool.false_eq_true, if_false]
        rw [h1 n (by simp at hn ⊢; omega)]
        simp
      · simp only [reduceCtorEq, if_false] at h2 ⊢
        have e : (fun q => if place kk <+: q then none else if place kk ++ fold x <+: q then none else m q) = fun q => if place kk <+: q then none else m q := by
          funext q
          by_cases hq : place kk <+: q
          · simp [hq]
          · have : ¬ place kk ++ fold x <+: q := fun h => hq ((List.prefix_append _ _).trans h)
            simp [hq, this]
        rw [e] at h2
        exact h2

include hI in
/-- `remove` removes. -/
theorem doRemove_spec (s : σ) (m : Spec.Conf.State) (hs : Rep s m) (hc : Spec.Walk.Closed m) (k : Text) (hp : Plain (.remove k)) :
    ∃ N s', (∀ n, N ≤ n → doRemove I n s (Key.parse k) = s') ∧ Rep s' (Spec.Conf.set m k none) := by
  obtain ⟨-, hw, hdot⟩ := hp
  have hk := removeKey_eq k hw
  have hpl := place_write k
  have hdir : Spec.Path.dir (Spec.Path.write (Spec.Path.names k) false) = false := Key.dir_write _ _ (Key.names_ok k) (by simp)
  have hnm : Spec.Path.names (Spec.Path.write (Spec.Path.names k) false) ≠ [[46]] := by rwa [Key.names_write _ _ (Key.names_ok k)]
  generalize Spec.Path.write (Spec.Path.names k) false = kk at hk hpl hdir hnm
  have hr := hI.reads s m hs
  have hex := hr.exists_ kk
  have hget : Spec.Conf.get m kk = m (place k) := by simp [Spec.Conf.get, hdir, hpl]
  rw [hget] at hex
  by_cases hm : m (place k) = none
  · refine ⟨0, s, ?_, ?_⟩
    · intro n _
      have : I.exists s (Key.parse kk) = false := by
        refine Bool.eq_false_iff.mpr fun h => ?_
        exact hex.mp h hm
      simp [doRemove, hk, this]
    · have e : Spec.Conf.set m k none = m := by
        funext q
        simp only [Spec.Conf.set]
        split
        · rename_i h
          obtain ⟨r, rfl⟩ := h
          refine Eq.symm (Decidable.byContradiction fun h => hc _ _ h hm)
        · rfl
      rw [e]; exact hs
  · have hex' : I.exists s (Key.parse kk) = true := hex.mpr hm
    have hit := hr.iterator kk
    have hset : ∀ q, Spec.Conf.set m k none q = if place k <+: q then none else m q := fun q => rfl
    have main : ∃ rest : List Key, Ready I s (RecIter.rewind I s (Key.parse kk)) (Key.parse kk) rest ∧
        (∀ q, place kk <+: q → q ≠ place kk → m q ≠ none → ∃ x ∈ rest, place kk ++ fold x <+: q) ∧
        (∀ x ∈ rest, Rec.One x ∧ m (place kk ++ fold x) ≠ none) ∧ (rest.map fold).Nodup := by
      cases hi : I.iterator s (Key.parse kk) with
      | none =>
        rw [hi] at hit
        refine ⟨[], ?_, ?_, by simp, by simp⟩
        · simp [Ready, RecIter.rewind, RecIter.sub, hi, RecIter.next, RecIter.descend, RecIter.advance]
        · intro q hq _ h
          obtain ⟨r, rfl⟩ := hq
          exact absurd (hit r) h
      | some r =>
        rw [hi] at hit
        obtain ⟨i1, i2, i3⟩ := hit
        refine ⟨r.map Prod.fst, ?_, ?_, ?_, by rw [List.map_map]; exact i1⟩
        · have e : RecIter.rewind I s (Key.parse kk) = ⟨Key.parse kk, [(none, r.map Prod.fst)], [], false⟩ := by
            simp [RecIter.rewind, RecIter.sub, hi]
          rw [e]
          cases r <;> simp [Ready, RecIter.next, RecIter.descend, RecIter.advance]
        · intro q hq hq1 h
          obtain ⟨t, rfl⟩ := hq
          cases t with
          | nil => simp at hq1
          | cons a t =>
            have h1 : m (place kk ++ [a]) ≠ none := hc _ t (by simpa using h)
            obtain ⟨v, hv⟩ := Option.ne_none_iff_exists'.mp h1
            obtain ⟨z, hz, hz2, -⟩ := (i3 a v).mp hv
            refine ⟨z.1, List.mem_map_of_mem hz, ?_⟩
            rw [hz2]
            exact ⟨t, by simp⟩
        · intro x hx
          obtain ⟨z, hz, rfl⟩ := List.mem_map.mp hx
          obtain ⟨⟨n', e, h⟩, hv⟩ := i2 z hz
          refine ⟨⟨n', e, h⟩, ?_⟩
          obtain ⟨v, hv⟩ := Option.ne_none_iff_exists'.mp hv
          have := (i3 (n'.map tolower) v).mpr ⟨z, hz, by rw [e]; rfl, hv⟩
          rw [e, show fold [n'] = [n'.map tolower] from rfl, this]
          simp
    obtain ⟨rest, h1, h2, h3, h4⟩ := main
    obtain ⟨s', h5, h6⟩ := remove_loop I Rep hI kk hdir hnm rest s m _ true hs h1 h2 h3 h4
    by_cases hrest : rest = []
    · subst hrest
      refine ⟨1, I.set s' (Key.parse kk) none, ?_, ?_⟩
      · intro n hn
        simp only [doRemove, hk, hex', if_true, h5 n (by simp; omega)]
        simp
      · simp only [if_true] at h6
        have := hI.set _ _ h6 kk none
        have e : Spec.Conf.set m kk none = Spec.Conf.set m k none := by simp [Spec.Conf.set, hpl]
        rwa [e] at this
    · refine ⟨rest.length + 1, s', ?_, ?_⟩
      · intro n hn
        have hf : rest.isEmpty = false := by cases rest <;> simp_all
        simp only [doRemove, hk, hex', if_true, h5 n (by omega)]
        simp [hf]
      · rw [if_neg hrest, hpl] at h6
        exact h6

end

end Rem
end Props
