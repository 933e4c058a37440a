import Verif.Proofs.ScarceRun
/-! # The grammar, as far as it matters after memory was refused -/
namespace Snek.Scarce
open Snek.Vm Snek.Lang Snek.Lex Snek.Parse Snek.Pda

variable {z : Sizes} {conv : BitVec 32 → BitVec 8} {g : Nat → Bool} {junk : MSt → Nat → UInt8} {P : Nat}

/-- What ends the command that is being read. -/
inductive Mk
  | stat | fn | top | none
  deriving DecidableEq

def marker : List Sym → Mk
  | [] => .none
  | .a .finish :: _ => .stat
  | .a .defEnd :: _ => .fn
  | .n .start :: _ => .top
  | .n .command :: _ => .top
  | _ :: k => marker k

/-- Tokens a symbol takes at least. -/
def ml : Sym → Nat
  | .t _ => 1
  | .n .smallStat | .n .assignExpr | .n .ifExpr | .n (.lvl _) => 1
  | .n .compoundStat | .n .ifStat | .n .whileStat | .n .forStat => 2
  | _ => 0

/-- Tokens the command that is being read takes at least. -/
def need : List Sym → Nat
  | [] => 0
  | .a .finish :: _ => 0
  | .a .defEnd :: _ => 0
  | .n .start :: _ => 0
  | .n .command :: _ => 0
  | x :: k => ml x + need k

/-- Which symbol can be above which. -/
def pairOk (x y : Sym) : Bool :=
  (x != .n .start) && (!(x == .a .defEnd || x == .a .finish || x == .n .command) || y == .n .start) &&
  (!(y == .n (.tail 3)) || (x == .a .push0 || x == .a .binopSecond)) && (y != .t .rel) && (!(y == .a .cmpLink) || x == .t .rel) &&
  (!(y == .a .defEnd) || (x == .n .suite || x == .n .simpleStat || x == .t .nl || x == .a .exdent)) &&
  (!(y == .a .exdent) || x == .t .exdent)

def adj : List Sym → Bool
  | [] => true
  | x :: k => match k with
    | [] => x == .n .start
    | y :: _ => pairOk x y && adj k

/-- Is a link of a comparison chain next? -/
def topW : List Sym → Bool
  | .n (.tail 3) :: _ | .t .rel :: _ | .a .cmpLink :: _ => true
  | _ => false

/-- Is the end of a block next? -/
def topL : List Sym → Bool
  | .a .defEnd :: _ | .a .exdent :: _ => true
  | _ => false

def early : List Sym → Bool
  | .n .stat :: .a .finish :: _ | .n .simpleStat :: .a .finish :: _ | .t .nl :: .a .finish :: _ | .a .finish :: _
  | .a .addLine :: .n .compoundStat :: .a .finish :: _
  | .a .addLine :: .n .smallStat :: .n .smallStatsP :: .t .nl :: .a .finish :: _ => true
  | _ => false

def plainT : List Sym → Bool
  | .n .start :: _ => true
  | .n .command :: .n .start :: _ => true
  | .t _ :: k => plainT k
  | _ => false

/-- What replaces a nonterminal fits where it was. -/
def Fits (x : NT) (r stk : List Sym) : Prop :=
  adj (r ++ stk) = true ∧ topL (r ++ stk) = false ∧ (topW (r ++ stk) = true → topW (.n x :: stk) = true) ∧
    (x ≠ .start → x ≠ .command → marker (r ++ stk) = marker (.n x :: stk) ∧ need (.n x :: stk) ≤ need (r ++ stk))

theorem adj_cons {x y : Sym} {k} : adj (x :: y :: k) = (pairOk x y && adj (y :: k)) := rfl

theorem topL_cons {y : Sym} {k} : topL (y :: k) = (y == .a .defEnd || y == .a .exdent) := by
  unfold topL
  split
  · rename_i e; cases e; rfl
  · rename_i e; cases e; rfl
  · rename_i h1 h2
    by_cases e1 : y = .a .defEnd
    · exact absurd (by rw [e1]) (h1 k)
    · by_cases e2 : y = .a .exdent
      · exact absurd (by rw [e2]) (h2 k)
      · simp [e1, e2]

theorem topW_cons {y : Sym} {k} : topW (y :: k) = (y == .n (.tail 3) || y == .t .rel || y == .a .cmpLink) := by
  unfold topW
  split
  · rename_i e; cases e; rfl
  · rename_i e; cases e; rfl
  · rename_i e; cases e; rfl
  · rename_i h1 h2 h3
    by_cases e1 : y = .n (.tail 3)
    · exact absurd (by rw [e1]) (h1 k)
    · by_cases e2 : y = .t .rel
      · exact absurd (by rw [e2]) (h2 k)
      · by_cases e3 : y = .a .cmpLink
        · exact absurd (by rw [e3]) (h3 k)
        · simp [e1, e2, e3]

theorem prodLvl_fits {l t r stk} (h : prodLvl l t = some r) (ha : adj (.n (.lvl l) :: stk) = true) : Fits (.lvl l) r stk := by
  cases stk with
  | nil => simp [adj] at ha
  | cons y k =>
    rw [adj_cons] at ha
    unfold prodLvl at h
    unfold Fits
    split at h <;> cases h
    all_goals simp [pairOk] at ha
    all_goals simp [adj_cons, pairOk, topL_cons, topW_cons, marker, need, ml, ha]
    all_goals (try omega)

theorem prodTail_fits {l t r stk} (h : prodTail l t = some r) (ha : adj (.n (.tail l) :: stk) = true) : Fits (.tail l) r stk := by
  cases stk with
  | nil => simp [adj] at ha
  | cons y k =>
    rw [adj_cons] at ha
    unfold prodTail at h
    unfold Fits
    split at h
    all_goals first | (cases h; done) | cases h | (split at h <;> cases h)
    all_goals simp [pairOk] at ha
    all_goals simp [adj_cons, pairOk, topL_cons, topW_cons, marker, need, ml, ha]
    all_goals (try omega)

theorem prod_fits {x t r stk} (h : Pda.prod x t = some r) (ha : adj (.n x :: stk) = true) : Fits x r stk := by
  cases stk with
  | nil =>
    have : x = .start := by simpa [adj] using ha
    subst this
    unfold Fits
    cases t <;> (cases h; simp [adj, pairOk, topL, topW])
  | cons y k =>
    unfold Pda.prod at h
    split at h
    all_goals first
      | (cases h; done)
      | exact prodLvl_fits h ha
      | exact prodTail_fits h ha
      | skip
    all_goals rw [adj_cons] at ha
    all_goals unfold Fits
    all_goals first | cases h | (split at h <;> cases h)
    all_goals simp [pairOk] at ha
    all_goals simp [adj_cons, pairOk, topL_cons, topW_cons, marker, need, ml, ha]
    all_goals first | omega | (have hh := ha.2; rw [ha.1.1.1.1.1.1] at hh; exact hh)

end Snek.Scarce
