import Verif.Model.Paths
import Verif.Props.Incr
import Mathlib.Data.List.Induction

/-!
# Property C197: persistence stays in its directory and leaves its own files alone
-/

namespace Valori.Props
open Valori Valori.Spec

theorem follow_append (a b : List FName) : ∀ loc, follow loc (a ++ b) = follow (follow loc a) b := by
  induction a with
  | nil => intro loc; rfl
  | cons x a ih => intro loc; exact ih _

theorem follow_plain {l : List FName} (h : ∀ n ∈ l, FName.plain n) : ∀ loc, follow loc l = loc ++ l := by
  induction l with
  | nil => intro loc; simp [follow]
  | cons x l ih =>
    intro loc
    have hx := h x (by simp)
    simp only [follow]
    rw [if_neg hx.2.2.1, ih (fun n hn => h n (by simp [hn]))]
    simp

theorem follow_stays {l : List FName} : ∀ (dir rest : List FName), Stays rest.length l →
    Below dir (follow (dir ++ rest) l) := by
  induction l with
  | nil => intro dir rest _; exact ⟨rest, rfl⟩
  | cons x l ih =>
    intro dir rest h
    simp only [follow]
    simp only [Stays] at h
    split
    · rename_i hx
      rw [if_pos hx] at h
      obtain ⟨k, hk, h⟩ := h
      have hne : rest ≠ [] := by rintro rfl; simp at hk
      have e : (dir ++ rest).dropLast = dir ++ rest.dropLast := by
        rw [List.dropLast_append_of_ne_nil hne]
      rw [e]
      exact ih dir rest.dropLast (by simpa [hk] using h)
    · rename_i hx
      rw [if_neg hx] at h
      rw [List.append_assoc]
      exact ih dir (rest ++ [x]) (by simpa using h)

theorem splitSlash_ne (p : List Char) : splitSlash p ≠ [] := by
  cases p with
  | nil => simp [splitSlash]
  | cons c cs =>
    simp only [splitSlash]
    split
    · simp
    · split <;> simp

theorem splitSlash_name {n : List Char} (h : '/' ∉ n) : splitSlash n = [n] := by
  induction n with
  | nil => rfl
  | cons c cs ih =>
    rw [splitSlash, ih (fun hh => h (by simp [hh]))]
    simp only
    rw [if_neg (fun e => h (by simp [e]))]

theorem splitSlash_cons {n : List Char} (h : '/' ∉ n) (p : List Char) :
    splitSlash (n ++ '/' :: p) = n :: splitSlash p := by
  induction n with
  | nil =>
    simp only [List.nil_append]
    rw [splitSlash]
    cases hs : splitSlash p with
    | nil => exact absurd hs (splitSlash_ne p)
    | cons w ws => simp
  | cons c cs ih =>
    rw [List.cons_append, splitSlash, ih (fun hh => h (by simp [hh]))]
    simp only
    rw [if_neg (fun e => h (by simp [e]))]

theorem parts_plain {n : List Char} (h : FName.plain n) : parts n = [n] := by
  simp [parts, splitSlash_name h.2.2.2, h.1, h.2.1]

theorem parts_cons {n : List Char} (h1 : n ≠ []) (h2 : n ≠ ['.']) (h3 : '/' ∉ n) (p : List Char) :
    parts (n ++ '/' :: p) = n :: parts p := by
  simp only [parts, splitSlash_cons h3]
  rw [List.filter_cons_of_pos (by simp [h1, h2])]

/-- Names with slashes after them. -/
def slashed : List FName → List Char
  | [] => []
  | n :: l => n ++ '/' :: slashed l

theorem parts_slashed {l : List FName} (h : ∀ n ∈ l, n ≠ [] ∧ n ≠ ['.'] ∧ '/' ∉ n)
    (p : List Char) : parts (slashed l ++ p) = l ++ parts p := by
  induction l with
  | nil => rfl
  | cons x l ih =>
    obtain ⟨a, b, c⟩ := h x (by simp)
    simp only [slashed, List.append_assoc, List.cons_append]
    rw [parts_cons a b c, ih (fun n hn => h n (by simp [hn]))]

/-- **C197.**  A path that is not absolute and never climbs above its start names a place in the data
directory. -/
theorem C197_confined_partial {dir : List FName} (hd : ∀ n ∈ dir, FName.plain n) (p : List Char)
    (ha : p.head? ≠ some '/') (hs : Stays 0 (parts p)) : Below dir (located dir p) := by
  simp only [located, joinPath]
  rw [if_neg ha, follow_append, follow_plain hd, List.nil_append]
  have := follow_stays (l := parts p) dir [] hs
  simpa using this

example : Stays 0 (parts "a/./b/../c".toList) ∧
    located ["data".toList] "a/./b/../c".toList = ["data".toList, "a".toList, "c".toList] := by
  refine ⟨?_, by decide⟩
  have : parts "a/./b/../c".toList = ["a".toList, "b".toList, "..".toList, "c".toList] := by decide
  rw [this]
  simp [Stays]

/-- **C197.**  A plain name is a file directly in the data directory. -/
theorem C197_plain_names {dir : List FName} (hd : ∀ n ∈ dir, FName.plain n) {n : List Char}
    (h : FName.plain n) : located dir n = dir ++ [n] := by
  have ha : n.head? ≠ some '/' := by
    obtain ⟨-, -, -, hs⟩ := h
    intro e
    exact hs (List.mem_of_mem_head? e)
  simp only [located, joinPath]
  rw [if_neg ha, parts_plain h, follow_append, follow_plain hd]
  exact follow_plain (by simpa using h) _

example : FName.plain "state.pkl".toList ∧
    located ["srv".toList, "data".toList] "state.pkl".toList =
      ["srv".toList, "data".toList, "state.pkl".toList] := by
  refine ⟨⟨by decide, by decide, by decide, by decide⟩, by decide⟩

theorem replicate_dots (k : Nat) : ∀ n ∈ List.replicate k ['.', '.'],
    n ≠ [] ∧ n ≠ ['.'] ∧ '/' ∉ n := by
  intro n hn
  obtain ⟨-, rfl⟩ := List.mem_replicate.1 hn
  refine ⟨by simp, by simp, by simp⟩

theorem follow_climb (dir : List FName) :
    follow dir (List.replicate dir.length ['.', '.']) = [] := by
  induction dir using List.reverseRecOn with
  | nil => rfl
  | append_singleton l x ih =>
    rw [List.length_append, List.length_singleton, List.replicate_succ, follow, if_pos rfl,
      List.dropLast_concat]
    exact ih

/-- **C197, refuted:** what is saved stays in the data directory.  Whatever the directory is, every file
on the machine can be named by an absolute path, and by a relative one as well: a save with such a path
overwrites that file, and a load unpickles it. -/
theorem C197_confined_refuted {dir loc : List FName} {last : FName}
    (hd : ∀ n ∈ dir, FName.plain n) (hl : ∀ n ∈ loc, FName.plain n) (hn : FName.plain last) :
    (∃ p : List Char, p.head? = some '/' ∧ located dir p = loc ++ [last]) ∧
    (∃ p : List Char, p.head? ≠ some '/' ∧ located dir p = loc ++ [last]) := by
  have h' : ∀ {n}, FName.plain n → n ≠ [] ∧ n ≠ ['.'] ∧ '/' ∉ n := fun h => ⟨h.1, h.2.1, h.2.2.2⟩
  constructor
  · refine ⟨'/' :: (slashed loc ++ last), rfl, ?_⟩
    simp only [located, joinPath]
    rw [if_pos (by simp)]
    have e : parts ('/' :: (slashed loc ++ last)) = parts (slashed loc ++ last) := by
      have := splitSlash_cons (n := []) (by simp) (slashed loc ++ last)
      simp only [List.nil_append] at this
      simp [parts, this]
    rw [e, parts_slashed (fun n h => h' (hl n h)), parts_plain hn, follow_plain (by
      intro n h
      rcases List.mem_append.1 h with h | h
      · exact hl n h
      · simp at h; subst h; exact hn)]
    rfl
  · have hall : ∀ n ∈ List.replicate dir.length ['.', '.'] ++ loc, n ≠ [] ∧ n ≠ ['.'] ∧ '/' ∉ n := by
      intro n h
      rcases List.mem_append.1 h with h | h
      · exact replicate_dots _ n h
      · exact h' (hl n h)
    have key : ∀ l : List FName, (∀ n ∈ l, n ≠ [] ∧ n ≠ ['.'] ∧ '/' ∉ n) →
        (slashed l ++ last).head? ≠ some '/' := by
      intro l hl' e
      cases l with
      | nil => exact hn.2.2.2 (List.mem_of_mem_head? (by simpa [slashed] using e))
      | cons x l =>
        obtain ⟨a, -, c⟩ := hl' x (by simp)
        cases x with
        | nil => exact a rfl
        | cons y ys =>
          simp only [slashed, List.cons_append, List.head?_cons, Option.some.injEq] at e
          exact c (by simp [e])
    refine ⟨slashed (List.replicate dir.length ['.', '.'] ++ loc) ++ last, key _ hall, ?_⟩
    simp only [located, joinPath]
    rw [if_neg (key _ hall), parts_slashed hall, parts_plain hn, follow_append, follow_append,
      follow_plain hd, List.nil_append, follow_append, follow_climb, follow_plain hl,
      follow_plain (by simpa using hn), List.nil_append]

example : located ["srv".toList, "data".toList] "/etc/passwd".toList = ["etc".toList, "passwd".toList] ∧
    located ["srv".toList, "data".toList] "../../etc/passwd".toList =
      ["etc".toList, "passwd".toList] := by decide

/-- **C197.**  Whatever the id, the disk storage keeps its vector and its metadata in files directly in
its two directories. -/
theorem C197_disk_confined {M : Type} (env : DiskEnv M) (hs : env.isalnum '/' = false)
    {dir : List FName} (hd : ∀ n ∈ dir, FName.plain n) (id : Id) :
    located dir (vectorFile env id) = dir ++ [vectorFile env id] ∧
    located dir (metadataFile env id) = dir ++ [metadataFile env id] := by
  have hno : '/' ∉ (sanitize env id).toList := by
    simp only [sanitize, String.toList_ofList, List.mem_map, not_exists, not_and]
    intro c _ e
    split at e
    · rename_i hc
      subst e
      simp [hs] at hc
    · simp at e
  have key : ∀ suf : List Char, 3 < suf.length → '/' ∉ suf →
      FName.plain ((sanitize env id).toList ++ suf) := by
    intro suf hl hsuf
    have len : ∀ w : List Char, w.length ≤ 2 → (sanitize env id).toList ++ suf ≠ w := by
      rintro w hw rfl
      simp at hw
      omega
    exact ⟨len _ (by simp), len _ (by simp), len _ (by simp), by simp [hno, hsuf]⟩
  exact ⟨C197_plain_names hd (key _ (by decide) (by decide)),
    C197_plain_names hd (key _ (by decide) (by decide))⟩

/-- A disk environment for the example: letters of the Latin alphabet and digits. -/
example : vectorFile (M := Nat) ⟨fun c => c.isAlphanum, fun _ => true, fun l => l⟩ "../../etc/passwd" =
    ".._.._etc_passwd.npy".toList := by decide

/-- **C197, refuted:** a save under a path of the caller leaves the manager's own files alone.  Saving
an index as `checkpoint.json` makes the manager forget its counters at the next start: the following
save of a state reports success, and loading gives the state before it. -/
theorem C197_own_files_refuted :
    let env := exIp 100
    let f0 : Incr String Nat (List Nat) := (ipRun env [.saveState "a" "p", .saveIndex "i" "x", .reopen]).2
    let r1 := Incr.saveIndexAt env "i" "checkpoint.json" f0
    let r2 := Incr.saveState env "b" "p" (Incr.init (Incr.new r1.2.disk))
    Incr.loadState env "p" f0 = .ok (some "a") ∧ r1.1 = .ok true ∧ r2.1 = .ok true ∧
      Incr.loadState env "p" r2.2 = .ok (some "a") := by
  decide +kernel

/-- Under any other path the counters stay as they are, or are those of the operation just logged. -/
theorem C197_own_files_partial {S V I A : Type} (env : IpEnv S I A) (s : S) (p : String)
    (hp : p ≠ "checkpoint.json") (f : Incr S V A) :
    (Incr.saveIndexAt env s p f).2.disk.info = f.disk.info ∨
    (Incr.saveIndexAt env s p f).2.disk.info = some (.info (f.count + 1) (f.count + 1)) := by
  simp only [Incr.saveIndexAt]
  rw [if_neg hp]
  simp only [Incr.saveIndex]
  split
  · exact .inl rfl
  · split
    · exact .inl rfl
    · simp only [Incr.logOp, Incr.maybeCheckpoint]
      split
      · exact .inr rfl
      · exact .inl rfl

/-- A manager that was not initialised refuses to save under any path and changes nothing. -/
theorem C197_closed {S V I A : Type} (env : IpEnv S I A) (s : S) (p : String) (f : Incr S V A)
    (hf : f.inited = false) : Incr.saveIndexAt env s p f = (.error .persistence, f) := by
  simp [Incr.saveIndexAt, Incr.saveIndex, hf]

example : (Incr.saveIndexAt (exIp 1) "i" "x"
      (ipRun (V := Nat) (exIp 1) [.saveState "a" "p", .reopen]).2).2.disk.info =
    some (.info 2 2) := by decide +kernel

end Valori.Props
