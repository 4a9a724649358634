import Verif.Model.LalFiles
import Verif.Props.Lal
/-!
# C151: LAL learns from the file of its mode, and gets it once
-/
namespace Alipy.Lal
open Alipy Select

variable {γ ρ σ : Type} {isDir : Path → Bool} {load : List γ → Except PyErr ρ} {fit : ρ → σ}

/-- The names of the two files LAL may write. -/
def dataFiles : List String := ["LAL-iterativetree-simulatedunbalanced-big.npz", "LAL-randomtree-simulatedunbalanced-big.npz"]

theorem fileOf_name (mode dir : String) : (fileOf mode dir).2 ∈ dataFiles := by
  unfold fileOf dataFiles
  split_ifs <;> simp

/-- What a step may do to the files. -/
def Keeps (d d' : Files γ) : Prop := (∀ p c, d p = some c → d' p = some c) ∧ ∀ p, d' p ≠ d p → p.2 ∈ dataFiles

theorem Keeps.refl (d : Files γ) : Keeps d d := ⟨fun _ _ h => h, fun _ h => absurd rfl h⟩

theorem Keeps.trans {d d' d'' : Files γ} (h : Keeps d d') (h' : Keeps d' d'') : Keeps d d'' := by
  refine ⟨fun p c e => h'.1 p c (h.1 p c e), fun p e => ?_⟩
  by_cases h1 : d' p = d p
  · exact h'.2 p (by rw [h1]; exact e)
  · exact h.2 p h1

theorem write_keeps {d : Files γ} {mode dir : String} (h : (d (fileOf mode dir)).isSome = false) (parts : List (List γ)) : Keeps d (write d (fileOf mode dir) parts) := by
  refine ⟨fun p c e => ?_, fun p e => ?_⟩
  · by_cases hp : p = fileOf mode dir
    · rw [← hp, e] at h; cases h
    · rw [write, if_neg hp, e]
  · by_cases hp : p = fileOf mode dir
    · rw [hp]; exact fileOf_name mode dir
    · rw [write, if_neg hp] at e; exact absurd rfl e

theorem download_keeps (d : Files γ) (o : Obj σ) (r : Reply γ) : Keeps d (download d o r).1 := by
  unfold download
  simp only
  split_ifs with h
  · exact .refl d
  · rw [Bool.not_eq_true] at h
    cases r with
    | refused => exact .refl d
    | noLength => exact .refl d
    | sent parts => exact write_keeps h parts
    | broken parts => exact write_keeps h parts

theorem make_keeps (d : Files γ) (y : List Int) (dirOk : Bool) (mode dir : String) (t : Bool) (r : Reply γ) : Keeps d (make isDir load fit d y dirOk mode dir t r).1 := by
  unfold make
  split
  · exact .refl d
  · simp only
    split_ifs
    · exact .refl d
    · have hk := download_keeps d (⟨mode, dir, none⟩ : Obj σ) r
      split
      · rename_i d' e h; rw [h] at hk; exact hk
      · rename_i d' h
        rw [h] at hk
        split <;> exact hk

/-- **C151**: no sequence of calls changes or removes a file that is there, whatever the server sends, and none makes a file of another name than those of the two modes. -/
theorem C151_files (s : Files γ × Option (Obj σ)) (cs : List (Call γ)) :
    (∀ p c, s.1 p = some c → (calls isDir load fit s cs).1 p = some c) ∧
    ∀ p, (calls isDir load fit s cs).1 p ≠ s.1 p → p.2 = "LAL-iterativetree-simulatedunbalanced-big.npz" ∨ p.2 = "LAL-randomtree-simulatedunbalanced-big.npz" := by
  have key : Keeps s.1 (calls isDir load fit s cs).1 := by
    induction cs generalizing s with
    | nil => exact .refl _
    | cons c cs ih =>
      refine Keeps.trans ?_ (ih (call isDir load fit s c))
      cases c with
      | make y dirOk mode dir t r => exact make_keeps _ _ _ _ _ _ _
      | download r =>
        simp only [call]
        split
        · exact .refl _
        · exact download_keeps _ _ _
      | train f =>
        simp only [call]
        split <;> exact .refl _
  exact ⟨key.1, fun p h => by simpa [dataFiles] using key.2 p h⟩

/-- **C151**: an object constructed with training has learnt from the file of its mode: what was there, or, if there was no such file, all that the server has sent. -/
theorem C151_learns {d d' : Files γ} {y : List Int} {dirOk : Bool} {mode dir : String} {r : Reply γ} {o : Obj σ}
    (h : make isDir load fit d y dirOk mode dir true r = (d', .ok o)) :
    ∃ content x, d' (fileOf mode dir) = some content ∧ load content = .ok x ∧ o = ⟨mode, dir, some (fit x)⟩ ∧
      (d (fileOf mode dir) = some content ∧ d' = d ∨ d (fileOf mode dir) = none ∧ ∃ parts, r = .sent parts ∧ content = parts.flatten) := by
  unfold make at h
  split at h
  · simp at h
  · simp only [Bool.not_true, Bool.false_eq_true, if_false] at h
    split at h
    · simp at h
    · rename_i d1 hd
      split at h
      · simp at h
      · rename_i o' ht
        obtain ⟨rfl, e⟩ := Prod.mk.inj h
        obtain rfl : o' = o := by injection e
        simp only [train, train.go] at ht
        split at ht
        · simp at ht
        · rename_i content hc
          split at ht
          · simp at ht
          · rename_i x hx
            refine ⟨content, x, hc, hx, (Prod.mk.inj ht).1.symm, ?_⟩
            unfold download at hd
            simp only at hd
            split_ifs at hd with hs
            · obtain rfl := (Prod.mk.inj hd).1
              exact .inl ⟨hc, rfl⟩
            · right
              cases r with
              | refused => simp at hd
              | noLength => simp at hd
              | broken parts => simp at hd
              | sent parts =>
                obtain rfl := (Prod.mk.inj hd).1
                refine ⟨by simpa using hs, parts, rfl, ?_⟩
                simp only [write, if_true] at hc
                exact (Option.some.inj hc).symm

/-- What the constructor asks for: labels of two classes, a directory and one of the two modes. -/
def Accepts (y : List Int) (dirOk : Bool) (mode : String) : Prop :=
  (∃ a b, a ≠ b ∧ ∀ z, z ∈ y ↔ z = a ∨ z = b) ∧ dirOk = true ∧ (mode = "LAL_iterative" ∨ mode = "LAL_independent")

theorem init_ok (y : List Int) (dirOk : Bool) (mode : String) : init y dirOk mode = .ok () ↔ Accepts y dirOk mode := by
  constructor
  · intro h
    refine ⟨C104_binary h, ?_⟩
    unfold init at h
    split_ifs at h with h1 h2 h3
    exact ⟨by simpa using h2, h3⟩
  · rintro ⟨⟨a, b, hab, hz⟩, rfl, hm⟩
    have hp : y.eraseDups.Perm [a, b] := by
      rw [List.perm_ext_iff_of_nodup (eraseDups_nodup y) (by simpa using hab)]
      intro z
      simp [hz]
    simp [init, hp.length_eq, hm]

/-- If the file of the mode is there, a construction depends on its content only, and downloads nothing. -/
theorem make_there {d : Files γ} {y : List Int} {dirOk : Bool} {mode dir : String} {content : List γ} (hi : init y dirOk mode = .ok ()) (hc : d (fileOf mode dir) = some content) (r : Reply γ) :
    make isDir load fit d y dirOk mode dir true r = (d, (load content).map (fun x => ⟨mode, dir, some (fit x)⟩)) := by
  unfold make
  rw [hi]
  simp only [Bool.not_true, Bool.false_eq_true, if_false, download, hc, Option.isSome_some, if_true, train, train.go]
  cases load content <;> rfl

theorem make_init {d d' : Files γ} {y : List Int} {dirOk : Bool} {mode dir : String} {t : Bool} {r : Reply γ} {o : Obj σ}
    (h : make isDir load fit d y dirOk mode dir t r = (d', .ok o)) : init y dirOk mode = .ok () := by
  unfold make at h
  split at h
  · simp at h
  · rename_i hi; exact hi

/-- **C151**: once an object has been constructed with training, every later construction with the same mode and directory, after whatever calls, with any data of two classes and
whatever the server does (also without a connection), gives a selector trained on the same data and leaves the files as they are. -/
theorem C151_once {d d' : Files γ} {y : List Int} {dirOk : Bool} {mode dir : String} {r : Reply γ} {o : Obj σ} (h : make isDir load fit d y dirOk mode dir true r = (d', .ok o))
    (cs : List (Call γ)) (s : Option (Obj σ)) {y' : List Int} (hy : ∃ a b, a ≠ b ∧ ∀ z, z ∈ y' ↔ z = a ∨ z = b) (r' : Reply γ) :
    make isDir load fit (calls isDir load fit (d', s) cs).1 y' true mode dir true r' = ((calls isDir load fit (d', s) cs).1, .ok o) := by
  obtain ⟨content, x, h1, h2, h3, -⟩ := C151_learns h
  have hi := (init_ok _ _ _).2 ⟨hy, rfl, ((init_ok _ _ _).1 (make_init h)).2.2⟩
  rw [make_there hi ((C151_files (d', s) cs).1 _ _ h1), h2, h3]
  rfl

/-- **C151**: labels of other than two classes, a path that is no directory, or an unknown mode are refused before anything is downloaded; without `train_slt` nothing is downloaded. -/
theorem C151_refused (d : Files γ) (y : List Int) (dirOk : Bool) (mode dir : String) (t : Bool) (r : Reply γ) :
    (¬ Accepts y dirOk mode → (make isDir load fit d y dirOk mode dir t r).1 = d ∧ (make isDir load fit d y dirOk mode dir t r).2.toOption = none) ∧
    (Accepts y dirOk mode → make isDir load fit d y dirOk mode dir false r = (d, .ok ⟨mode, dir, none⟩)) := by
  rw [← init_ok]
  constructor
  · intro h
    cases he : init y dirOk mode with
    | ok u => exact absurd he h
    | error e => simp [make, he]; rfl
  · intro he; simp [make, he]

/-- The training calls of a list that succeed, seen from the object: a program that makes no new object. -/
inductive Trains (isDir : Path → Bool) (load : List γ → Except PyErr ρ) (fit : ρ → σ) : Files γ × Obj σ → List (Call γ) → Option ρ → Prop
  | nil (s) : Trains isDir load fit s [] none
  | download {d : Files γ} {o : Obj σ} {r : Reply γ} {cs : List (Call γ)} {x : Option ρ} : Trains isDir load fit ((download d o r).1, o) cs x → Trains isDir load fit (d, o) (.download r :: cs) x
  | fails {d : Files γ} {o : Obj σ} {f : Option Path} {cs : List (Call γ)} {x : Option ρ} : (∀ p content z, (f = none ∧ p = fileOf o.mode o.dir ∨ f = some p ∧ isDir p = false) → d p = some content → load content ≠ .ok z) →
      Trains isDir load fit (d, o) cs x → Trains isDir load fit (d, o) (.train f :: cs) x
  | works {d : Files γ} {o : Obj σ} {f : Option Path} {p : Path} {content : List γ} {z : ρ} {cs : List (Call γ)} {x : Option ρ} :
      (f = none ∧ p = fileOf o.mode o.dir ∨ f = some p ∧ isDir p = false) → d p = some content → load content = .ok z →
      Trains isDir load fit (d, { o with selector := some (fit z) }) cs x → Trains isDir load fit (d, o) (.train f :: cs) (x.or (some z))

/-- **C151**: an object knows what the last successful training has taught it, or what it knew before if none was successful. -/
theorem C151_last {s : Files γ × Obj σ} {cs : List (Call γ)} {x : Option ρ} (h : Trains isDir load fit s cs x) :
    ∃ d, calls isDir load fit (s.1, some s.2) cs = (d, some { s.2 with selector := (x.map fit).or s.2.selector }) := by
  induction h with
  | nil s => exact ⟨s.1, by simp [calls]⟩
  | download _ ih =>
    obtain ⟨d, hd⟩ := ih
    exact ⟨d, by simpa [calls, call] using hd⟩
  | @fails d o f cs x hf _ ih =>
    obtain ⟨d', hd⟩ := ih
    refine ⟨d', ?_⟩
    have : (train isDir load fit d o f).1 = o := by
      have go : ∀ p, (f = none ∧ p = fileOf o.mode o.dir ∨ f = some p ∧ isDir p = false) → (train.go load fit d o p).1 = o := by
        intro p hp
        unfold train.go
        split
        · rfl
        · rename_i content hc
          split
          · rfl
          · rename_i z hz; exact absurd hz (hf p content z hp hc)
      unfold train
      split
      · rename_i p
        split_ifs with hp
        · rfl
        · exact go p (.inr ⟨rfl, by simpa using hp⟩)
      · exact go _ (.inl ⟨rfl, rfl⟩)
    simp only [calls, List.foldl_cons, call, this]
    exact hd
  | @works d o f p content z cs x hp hc hz _ ih =>
    obtain ⟨d', hd⟩ := ih
    refine ⟨d', ?_⟩
    have : (train isDir load fit d o f).1 = { o with selector := some (fit z) } := by
      rcases hp with ⟨rfl, rfl⟩ | ⟨rfl, hp⟩ <;> simp [train, train.go, *]
    simp only [calls, List.foldl_cons, call, this]
    rw [calls] at hd
    rw [hd]
    cases x <;> simp

/-- **C151**, violation: if what the server sends cannot be read (the connection breaks, or a page saying that there is no such file arrives, as the status of the answer is not looked at), the
construction fails, and every later one with this mode and directory fails too, whatever the server sends then: what has arrived stays in the place of the file, and is never downloaded again. -/
theorem C151_broken_violation {d : Files γ} {y : List Int} {mode dir : String} (hy : Accepts y true mode) (hd : d (fileOf mode dir) = none) {parts : List (List γ)} {e : PyErr}
    (hl : load parts.flatten = .error e) {r : Reply γ} (hr : r = .broken parts ∨ r = .sent parts) (cs : List (Call γ)) (s : Option (Obj σ)) (r' : Reply γ) :
    let d' := (make isDir load fit d y true mode dir true r).1
    (make isDir load fit d y true mode dir true r).2.toOption = none ∧
    make isDir load fit (calls isDir load fit (d', s) cs).1 y true mode dir true r' = ((calls isDir load fit (d', s) cs).1, .error e) := by
  have hi := (init_ok _ _ _).2 hy
  have h2 : (write d (fileOf mode dir) parts) (fileOf mode dir) = some parts.flatten := by simp [write]
  have h1 : ∃ e', make isDir load fit d y true mode dir true r = (write d (fileOf mode dir) parts, .error e') := by
    unfold make
    rw [hi]
    rcases hr with rfl | rfl
    · exact ⟨.genericException, by simp [download, hd]⟩
    · exact ⟨e, by simp [download, hd, train, train.go, h2, hl]⟩
  obtain ⟨e', h1⟩ := h1
  simp only
  rw [h1]
  refine ⟨rfl, ?_⟩
  rw [make_there hi ((C151_files (write d (fileOf mode dir) parts, s) cs).1 _ _ h2), hl]
  rfl

section example_
/-- Files of numbers; a file is complete if it ends with 0. -/
def demoLoad (l : List Nat) : Except PyErr Nat := if l.getLast? = some 0 then .ok l.length else .error .valueError

example : (make (fun _ => false) demoLoad id (fun _ => none) [1, -1, 1] true "LAL_iterative" "." true (.sent [[1, 2], [], [3, 0]])).2.toOption.map Obj.selector = some (some 4) := by
  decide +kernel

-- with the file there, no connection is needed
example : (make (fun _ => false) demoLoad id (fun p => if p.2 = "LAL-randomtree-simulatedunbalanced-big.npz" then some [7, 0] else none) [1, -1, 1] true "LAL_independent" "." true .refused).2.toOption.map
    Obj.selector = some (some 2) := by
  decide +kernel

-- half a file stays half a file
example : let d := (make (fun _ => false) demoLoad id (fun _ => none) [1, -1, 1] true "LAL_iterative" "." true (.broken [[1, 2]])).1
    (make (fun _ => false) demoLoad id d [1, -1, 1] true "LAL_iterative" "." true (.sent [[1, 2], [3, 0]])).2.toOption.map Obj.selector = none := by
  decide +kernel

example : Trains (fun _ => false) demoLoad id ((fun _ => none : Files Nat), ⟨"LAL_iterative", ".", none⟩) [.train none, .download (.sent [[5, 0]]), .train none] (some 2) := by
  refine .fails (by simp) (.download ?_)
  exact .works (x := none) (.inl ⟨rfl, rfl⟩) (content := [5, 0]) (z := 2) (by simp [download, write]) (by decide +kernel) (.nil _)
end example_

end Alipy.Lal
