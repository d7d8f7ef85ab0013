import Verif.Props.Invalid
import Verif.Model.Trader
import Verif.Model.TrendScan
import Verif.Props.Estimator

/-!
Property theorems C106, continued: which exception an invalid call raises.
-/

namespace Mizar.Props
open Mizar
variable {K : Type} [Field K] [LinearOrder K]

private theorem mapE_first {α β : Type} (f : α → Py β) (e : PyErr) (pre post : List α) (a : α) (h : ∀ x ∈ pre, ∃ b, f x = .ok b)
    (ha : f a = .error e) : mapE f (pre ++ a :: post) = .error e := by
  induction pre with
  | nil => simp [mapE, ha]
  | cons x pre ih =>
    obtain ⟨b, hb⟩ := h x (by simp)
    rw [List.cons_append, mapE, hb, ih fun y hy => h y (by simp [hy])]

/-- C106: `predict` compares the first bar of the frame to align on with the last bar of every frame, in the order of the
dictionary: the first frame that ends before it raises `ValueError`, the first without bars `IndexError`. -/
theorem C106_overlap (c : Pipe.Cfg K) (X : Pipe.Dict K) (hf : Pipe.metaFitted c = true) (target : Frame K)
    (ht : X.lookup c.alignOn = some target) :
    (target.index = [] → Pipe.predict c X = .error .indexError) ∧
    ∀ a rest, target.index = a :: rest → ∀ pre name f post, X = pre ++ (name, f) :: post →
      (∀ q ∈ pre, ∃ b, q.2.index.getLast? = some b ∧ a ≤ b) →
      (f.index = [] → Pipe.predict c X = .error .indexError) ∧
      (∀ b, f.index.getLast? = some b → b < a → Pipe.predict c X = .error .valueError) := by
  have key : ∀ e, mapE (Pipe.checkOverlap target.index) X = .error e → Pipe.predict c X = .error e := by
    intro e he
    unfold Pipe.predict
    rw [hf, if_neg (by simp), ht]
    dsimp only
    rw [he]
    rfl
  constructor
  · intro h0
    apply key
    cases X with
    | nil => simp at ht
    | cons p X => rw [h0]; rfl
  · intro a rest ha pre name f post hX hpre
    have hok : ∀ q ∈ pre, ∃ u, Pipe.checkOverlap target.index q = .ok u := by
      intro q hq
      obtain ⟨b, hb, hab⟩ := hpre q hq
      refine ⟨(), ?_⟩
      unfold Pipe.checkOverlap
      rw [hb, ha]
      dsimp only [List.head?]
      rw [if_neg (by omega)]
    constructor
    · intro h0
      apply key
      rw [hX]
      refine mapE_first _ _ _ _ _ hok ?_
      unfold Pipe.checkOverlap
      rw [ha]
      dsimp only
      rw [h0]
      rfl
    · intro b hb hba
      apply key
      rw [hX]
      refine mapE_first _ _ _ _ _ hok ?_
      unfold Pipe.checkOverlap
      rw [ha]
      dsimp only
      rw [hb]
      dsimp only [List.head?]
      rw [if_pos (by omega)]

/-- C106: a probability row without values raises `ValueError` when the bet sizer is prepared, whichever rows come after it. -/
theorem C106_empty_row (c : Pipe.Cfg K) (bs : List (Pipe.BetRow K) → Py (Pipe.Ser K)) (hb : c.betSizer = some bs) (t : ℤ)
    (post : List (ℤ × List (XF K))) : Pipe.sizePrimary c ((t, []) :: post) = .error .valueError := by
  unfold Pipe.sizePrimary
  rw [hb]
  rfl

/-- C106: a position needs all three columns of the bars: a frame without one of them raises `AssertionError`, whichever others it
has. -/
theorem C106_position_columns (s : Trade.Signal K) (b : Frame K)
    (h : ∃ n ∈ [Trade.STOP_LOSS, Trade.PROFIT_TAKING, Trade.NUM_BARS], n ∉ b.cols) :
    Trade.joinPosition s b = .error .assertionError := by
  obtain ⟨n, hn, hb⟩ := h
  have hs : n ∉ (Trade.signalFrame s).cols := by
    simp only [List.mem_cons, List.not_mem_nil, or_false] at hn
    rcases hn with rfl | rfl | rfl <;> simp [Trade.signalFrame, Trade.STOP_LOSS, Trade.PROFIT_TAKING, Trade.NUM_BARS, Trade.SIDE, Trade.SIZE]
  unfold Trade.joinPosition concatOuter
  rw [if_neg (by simp)]
  simp only [Py.bind_ok, Trade.checkColumns]
  rw [if_neg]
  · rfl
  · rw [List.all_eq_true]
    intro hall
    have := hall n (by simp only [List.mem_cons, List.not_mem_nil, or_false] at hn ⊢; tauto)
    simp only [List.flatMap_cons, List.flatMap_nil, List.append_nil, List.mem_append, decide_eq_true_eq] at this
    tauto

/-- C106: a trend scanner whose shortest window is not shorter than its longest raises `AssertionError` when it is made, every other
one can be made. -/
theorem C106_trend_scanner (p : Trend.Params) :
    (p.look ≤ p.minLen → Trend.init p = .error .assertionError) ∧ (p.minLen < p.look → Trend.init p = .ok ()) :=
  ⟨fun h => if_neg (by omega), fun h => if_pos h⟩

/-- C106: `set_params` with a name that is not a parameter raises `ValueError` for every object whose parameters can be read, and
leaves the choice of the value no matter. -/
theorem C106_set_params {V : Type} (c : Est.ClassDef) (o : Est.Obj V) (vs : List V) (hg : Est.getParams c o = .ok vs) (name : String)
    (v : V) (hn : name ∉ c.params) : Est.setParam c o name v = .error .valueError := by
  unfold Est.setParam
  rw [hg, Py.bind_ok, if_neg hn]

example : Pipe.predict (K := ℚ) ⟨"bars", [], [("bars", none), ("old", none)], [], ⟨true, [1], fun _ => .ok [.fin 1], fun _ => .ok [[.fin 1]]⟩,
      none, false, false, none⟩ [("bars", ⟨["a"], [(10, [.fin 1])]⟩), ("old", ⟨["a"], [(5, [.fin 1])]⟩)] = .error .valueError :=
  ((C106_overlap _ _ rfl ⟨["a"], [(10, [.fin 1])]⟩ rfl).2 10 [] rfl [("bars", ⟨["a"], [(10, [.fin 1])]⟩)] "old" ⟨["a"], [(5, [.fin 1])]⟩ []
    rfl (by simp [Frame.index])).2 5 rfl (by norm_num)

example : Trade.joinPosition (K := ℚ) [(1, .fin 1, .fin 1)] ⟨[Trade.STOP_LOSS, Trade.PROFIT_TAKING], [(1, [.fin 1, .fin 1])]⟩ =
    .error .assertionError := C106_position_columns _ _ ⟨Trade.NUM_BARS, by simp, by decide⟩

example : Est.setParam Est.rollMeasure (Est.attrs Est.rollMeasure [5, 6]) "windows" 7 = .error .valueError :=
  C106_set_params _ _ [5, 6] rfl _ _ (by decide)

end Mizar.Props
