import Verif.Model.Table

/-!
# The constituent catalogue (`utide/data/ut_constants.npz`)

Generated by `tools/gen_table.py`; do not edit. One entry per catalogue position 0..145.
-/

namespace UTide

/-- `ut_constants.npz`, catalogue positions 0 to 19. -/
def catalogue0 : List Con := [
  ⟨"Z0", ⟨0, 0⟩, ⟨0, 0⟩, some 47, .primary ⟨0, 0, 0, 0, 0, 0⟩ ⟨0, 0⟩, []⟩,
  ⟨"SA", ⟨8417182912555003, 66⟩, ⟨8417987190596617, 66⟩, some 2, .primary ⟨0, 0, 1, 0, 0, -1⟩ ⟨0, 0⟩, []⟩,
  ⟨"SSA", ⟨4208792525787905, 64⟩, ⟨4208792525787905, 64⟩, some 0, .primary ⟨0, 0, 2, 0, 0, 0⟩ ⟨0, 0⟩, []⟩,
  ⟨"MSM", ⟨6040297802564639, 62⟩, ⟨933271511235169, 62⟩, some 4, .primary ⟨0, 1, -2, 1, 0, 0⟩ ⟨0, 0⟩, []⟩,
  ⟨"MM", ⟨54481010264061, 55⟩, ⟨755037282966655, 59⟩, some 5, .primary ⟨0, 1, 0, -1, 0, 0⟩ ⟨0, 0⟩, []⟩,
  ⟨"MSF", ⟨1626733447191631, 59⟩, ⟨1626733447191631, 59⟩, some 0, .primary ⟨0, 2, -2, 0, 0, 0⟩ ⟨0, 0⟩, []⟩,
  ⟨"MF", ⟨1758258213622503, 59⟩, ⟨16440595803859, 56⟩, some 5, .primary ⟨0, 2, 0, 0, 0, 0⟩ ⟨0, 0⟩, []⟩,
  ⟨"ALP1", ⟨4957068140302823, 57⟩, ⟨188759306330145, 57⟩, some 8, .primary ⟨1, -4, 2, 1, 0, 0⟩ ⟨-1, 2⟩, [⟨1, -1, 0, 0, ⟨3, 2⟩, ⟨5188146770730811, 57⟩⟩, ⟨0, 0, -1, 0, ⟨0, 0⟩, ⟨1716772177953633, 53⟩⟩]⟩,
  ⟨"2Q1", ⟨643228430829121, 54⟩, ⟨217924055467763, 57⟩, some 10, .primary ⟨1, -3, 0, 2, 0, 0⟩ ⟨-1, 2⟩, [⟨0, -2, -2, 0, ⟨1, 1⟩, ⟨226981421219473, 55⟩⟩, ⟨1, -1, -1, 0, ⟨3, 2⟩, ⟨6946352065256253, 58⟩⟩, ⟨1, -1, 0, 0, ⟨3, 2⟩, ⟨8747791916204451, 57⟩⟩, ⟨0, 0, -2, 0, ⟨1, 1⟩, ⟨226981421219473, 55⟩⟩, ⟨0, 0, -1, 0, ⟨0, 0⟩, ⟨1697857059518677, 53⟩⟩]⟩,
  ⟨"SIG1", ⟨2587496097885293, 56⟩, ⟨14582374568809, 56⟩, some 8, .primary ⟨1, -3, 2, 0, 0, 0⟩ ⟨-1, 2⟩, [⟨1, -1, 0, 0, ⟨3, 2⟩, ⟨5476377146882523, 59⟩⟩, ⟨0, 0, -2, 0, ⟨1, 1⟩, ⟨7032821178101767, 60⟩⟩, ⟨0, 0, -1, 0, ⟨0, 0⟩, ⟨1696956339593203, 53⟩⟩, ⟨0, 2, 0, 0, ⟨1, 1⟩, ⟨626901068129973, 56⟩⟩]⟩,
  ⟨"Q1", ⟨5363751502100731, 57⟩, ⟨54481010264061, 55⟩, some 12, .primary ⟨1, -2, 0, 1, 0, 0⟩ ⟨-1, 2⟩, [⟨0, -2, -3, 0, ⟨1, 1⟩, ⟨6456360425798343, 63⟩⟩, ⟨0, -2, -2, 0, ⟨1, 1⟩, ⟨4496393867966703, 60⟩⟩, ⟨1, -1, -2, 0, ⟨3, 2⟩, ⟨1152921504606847, 60⟩⟩, ⟨1, -1, -1, 0, ⟨3, 2⟩, ⟨3314649325744685, 58⟩⟩, ⟨1, -1, 0, 0, ⟨3, 2⟩, ⟨8416326983629983, 58⟩⟩, ⟨0, 0, -2, 0, ⟨1, 1⟩, ⟨1642913144064757, 58⟩⟩, ⟨0, -1, 0, 1, ⟨0, 0⟩, ⟨7378697629483821, 63⟩⟩, ⟨0, 0, -1, 0, ⟨0, 0⟩, ⟨1696956339593203, 53⟩⟩, ⟨1, 1, 0, 0, ⟨3, 2⟩, ⟨4150517416584649, 61⟩⟩, ⟨0, 2, 0, 0, ⟨1, 1⟩, ⟨6456360425798343, 61⟩⟩]⟩,
  ⟨"RHO1", ⟨2696458118413415, 56⟩, ⟨29164734726099, 57⟩, some 10, .primary ⟨1, -2, 2, -1, 0, 0⟩ ⟨-1, 2⟩, [⟨0, 0, -2, 0, ⟨1, 1⟩, ⟨208967022709991, 55⟩⟩, ⟨0, 0, -1, 0, ⟨0, 0⟩, ⟨6780619598969019, 55⟩⟩, ⟨1, 1, 0, 0, ⟨3, 2⟩, ⟨117994310237107, 53⟩⟩, ⟨0, 2, 0, 0, ⟨1, 1⟩, ⟨4150517416584649, 56⟩⟩, ⟨0, 2, 1, 0, ⟨0, 0⟩, ⟨1261007895663739, 56⟩⟩]⟩,
  ⟨"O1", ⟨5581675543156975, 57⟩, ⟨219782276702813, 56⟩, some 20, .primary ⟨1, -1, 0, 0, 0, 0⟩ ⟨-1, 2⟩, [⟨1, -1, 0, 0, ⟨1, 2⟩, ⟨5534023222112865, 64⟩⟩, ⟨0, 0, -2, 0, ⟨1, 1⟩, ⟨208967022709991, 55⟩⟩, ⟨0, 0, -1, 0, ⟨0, 0⟩, ⟨1697857059518677, 53⟩⟩, ⟨1, 1, -1, 0, ⟨1, 2⟩, ⟨7378697629483821, 64⟩⟩, ⟨1, 1, 0, 0, ⟨3, 2⟩, ⟨208967022709991, 56⟩⟩, ⟨1, 1, 1, 0, ⟨1, 2⟩, ⟨7378697629483821, 64⟩⟩, ⟨0, 2, 0, 0, ⟨1, 1⟩, ⟨7378697629483821, 60⟩⟩, ⟨0, 2, 1, 0, ⟨1, 1⟩, ⟨1152921504606847, 60⟩⟩]⟩,
  ⟨"TAU1", ⟨1403639187294053, 55⟩, ⟨32881206019237, 57⟩, some 12, .primary ⟨1, -1, 2, 0, 0, 0⟩ ⟨-3, 2⟩, [⟨0, -2, 0, 0, ⟨0, 0⟩, ⟨1606884347045793, 55⟩⟩, ⟨1, -1, 0, 0, ⟨1, 2⟩, ⟨1534826753007865, 55⟩⟩, ⟨0, 0, -1, 0, ⟨1, 1⟩, ⟨4092871341354307, 57⟩⟩, ⟨0, 0, 1, 0, ⟨1, 1⟩, ⟨7818248953115181, 55⟩⟩, ⟨0, 0, 2, 0, ⟨1, 1⟩, ⟨4092871341354307, 58⟩⟩]⟩,
  ⟨"BET1", ⟨5770434863898639, 57⟩, ⟨16440595803859, 56⟩, some 15, .primary ⟨1, 0, -2, 1, 0, 0⟩ ⟨-3, 2⟩, [⟨0, 0, -1, 0, ⟨0, 0⟩, ⟨8164125404497235, 55⟩⟩]⟩,
  ⟨"NO1", ⟨5803316055506357, 57⟩, ⟨54481010264061, 55⟩, some 20, .primary ⟨1, 0, 0, 1, 0, 0⟩ ⟨-3, 2⟩, [⟨0, -2, -2, 0, ⟨1, 1⟩, ⟨1642913144064757, 58⟩⟩, ⟨0, -2, -1, 0, ⟨0, 0⟩, ⟨149744687610069, 51⟩⟩, ⟨0, -2, 0, 0, ⟨0, 0⟩, ⟨6477977704009721, 54⟩⟩, ⟨1, -1, -1, 0, ⟨3, 2⟩, ⟨4770212725310829, 57⟩⟩, ⟨1, -1, 0, 0, ⟨1, 2⟩, ⟨2005903274030819, 53⟩⟩, ⟨1, -1, 1, 0, ⟨3, 2⟩, ⟨8358680908399641, 58⟩⟩, ⟨0, 0, -1, 0, ⟨1, 1⟩, ⟨8358680908399641, 58⟩⟩, ⟨0, 0, 1, 0, ⟨0, 0⟩, ⟨7220170922600379, 55⟩⟩, ⟨0, 0, 2, 0, ⟨1, 1⟩, ⟨3112888062438487, 59⟩⟩]⟩,
  ⟨"CHI1", ⟨729060098779057, 54⟩, ⟨29164734726099, 57⟩, some 15, .primary ⟨1, 0, 2, -1, 0, 0⟩ ⟨-3, 2⟩, [⟨0, 0, -1, 0, ⟨1, 1⟩, ⟨8128096607478271, 58⟩⟩, ⟨0, 0, 1, 0, ⟨0, 0⟩, ⟨1969874477011855, 53⟩⟩]⟩,
  ⟨"PI1", ⟨5971919094578799, 57⟩, ⟨4109952594021, 55⟩, some 18, .primary ⟨1, 1, -3, 0, 0, 1⟩ ⟨-1, 2⟩, [⟨0, 0, -1, 0, ⟨1, 1⟩, ⟨4496393867966703, 59⟩⟩]⟩,
  ⟨"P1", ⟨5988358904954883, 57⟩, ⟨16440595803859, 56⟩, some 20, .primary ⟨1, 1, -2, 0, 0, 0⟩ ⟨-1, 2⟩, [⟨0, 0, -2, 0, ⟨0, 0⟩, ⟨7378697629483821, 63⟩⟩, ⟨0, 0, -1, 0, ⟨1, 1⟩, ⟨6456360425798343, 59⟩⟩, ⟨0, 0, 0, 2, ⟨1, 1⟩, ⟨7378697629483821, 64⟩⟩, ⟨1, 1, 0, 0, ⟨3, 2⟩, ⟨7378697629483821, 64⟩⟩, ⟨0, 2, 0, 0, ⟨1, 1⟩, ⟨3458764513820541, 61⟩⟩, ⟨0, 2, 1, 0, ⟨1, 1⟩, ⟨5534023222112865, 64⟩⟩]⟩,
  ⟨"S1", ⟨6004800286186517, 57⟩, ⟨4109952594021, 55⟩, some 20, .primary ⟨1, 1, -1, 0, 0, 1⟩ ⟨-3, 2⟩, [⟨0, 0, 0, -2, ⟨0, 0⟩, ⟨6366288433250933, 54⟩⟩, ⟨0, 0, 1, 0, ⟨1, 1⟩, ⟨3804640965202595, 57⟩⟩]⟩]

/-- `ut_constants.npz`, catalogue positions 20 to 39. -/
def catalogue1 : List Con := [
  ⟨"K1", ⟨6021240096562601, 57⟩, ⟨6021240096562601, 57⟩, some 0, .primary ⟨1, 1, 0, 0, 0, 0⟩ ⟨-3, 2⟩, [⟨0, -2, -1, 0, ⟨0, 0⟩, ⟨7378697629483821, 65⟩⟩, ⟨1, -1, -1, 0, ⟨3, 2⟩, ⟨7378697629483821, 66⟩⟩, ⟨1, -1, 0, 0, ⟨1, 2⟩, ⟨6456360425798343, 63⟩⟩, ⟨1, -1, 1, 0, ⟨3, 2⟩, ⟨7378697629483821, 66⟩⟩, ⟨0, 0, -2, 0, ⟨0, 0⟩, ⟨7378697629483821, 66⟩⟩, ⟨0, 0, -1, 0, ⟨1, 1⟩, ⟨5706961447803893, 58⟩⟩, ⟨0, 0, 1, 0, ⟨0, 0⟩, ⟨2442752437885757, 54⟩⟩, ⟨0, 0, 2, 0, ⟨1, 1⟩, ⟨208967022709991, 56⟩⟩, ⟨1, 1, 0, 0, ⟨1, 2⟩, ⟨7378697629483821, 65⟩⟩, ⟨1, 1, 1, 0, ⟨1, 2⟩, ⟨7378697629483821, 66⟩⟩]⟩,
  ⟨"PSI1", ⟨6037679906938685, 57⟩, ⟨4109952594021, 55⟩, some 20, .primary ⟨1, 1, 1, 0, 0, -1⟩ ⟨-3, 2⟩, [⟨0, 0, 1, 0, ⟨0, 0⟩, ⟨5476377146882523, 58⟩⟩]⟩,
  ⟨"PHI1", ⟨6054121288170319, 57⟩, ⟨16440595803859, 56⟩, some 20, .primary ⟨1, 1, 2, 0, 0, 0⟩ ⟨-3, 2⟩, [⟨0, -2, 0, 0, ⟨0, 0⟩, ⟨2478781234904721, 56⟩⟩, ⟨0, -2, 1, 0, ⟨0, 0⟩, ⟨6110483974416289, 59⟩⟩, ⟨0, 0, 0, -2, ⟨0, 0⟩, ⟨3804640965202595, 58⟩⟩, ⟨0, 0, 1, 0, ⟨1, 1⟩, ⟨5534023222112865, 57⟩⟩, ⟨0, 0, 2, 0, ⟨1, 1⟩, ⟨5332261958806667, 58⟩⟩]⟩,
  ⟨"THE1", ⟨3104999701446373, 56⟩, ⟨29164749137617, 57⟩, some 24, .primary ⟨1, 2, -2, 1, 0, 0⟩ ⟨-3, 2⟩, [⟨0, -2, -1, 0, ⟨0, 0⟩, ⟨1080863910568919, 55⟩⟩, ⟨1, -1, 0, 0, ⟨1, 2⟩, ⟨8128096607478271, 59⟩⟩, ⟨0, 0, -1, 0, ⟨1, 1⟩, ⟨4568451462004631, 57⟩⟩, ⟨0, 0, 1, 0, ⟨0, 0⟩, ⟨7180539245879519, 55⟩⟩]⟩,
  ⟨"J1", ⟨6239164152030363, 57⟩, ⟨108962027733881, 56⟩, some 20, .primary ⟨1, 2, 0, -1, 0, 0⟩ ⟨-3, 2⟩, [⟨0, 0, -1, 0, ⟨1, 1⟩, ⟨8473973058860325, 58⟩⟩, ⟨0, 0, 1, 0, ⟨0, 0⟩, ⟨3566850904877433, 54⟩⟩, ⟨0, 0, 2, 0, ⟨1, 1⟩, ⟨5418731071652181, 60⟩⟩, ⟨1, 1, -1, 0, ⟨3, 2⟩, ⟨3112888062438487, 60⟩⟩, ⟨1, 1, 0, 0, ⟨1, 2⟩, ⟨734987459186865, 53⟩⟩, ⟨1, 1, 1, 0, ⟨1, 2⟩, ⟨4770212725310829, 57⟩⟩, ⟨1, 1, 2, 0, ⟨1, 2⟩, ⟨3112888062438487, 60⟩⟩, ⟨0, 2, 0, 0, ⟨1, 1⟩, ⟨8762203435012037, 59⟩⟩, ⟨0, 2, 1, 0, ⟨1, 1⟩, ⟨2824657686286775, 58⟩⟩, ⟨0, 2, 2, 0, ⟨1, 1⟩, ⟨1642913144064757, 58⟩⟩]⟩,
  ⟨"2PO1", ⟨3197521133376395, 56⟩, ⟨0, 0⟩, none, .shallow [(18, ⟨2, 0⟩), (12, ⟨-1, 0⟩)], []⟩,
  ⟨"SO1", ⟨1606980864590127, 55⟩, ⟨16440595803859, 56⟩, some 27, .shallow [(56, ⟨1, 0⟩), (12, ⟨-1, 0⟩)], []⟩,
  ⟨"OO1", ⟨3230402324984113, 56⟩, ⟨221640497937863, 57⟩, some 24, .primary ⟨1, 3, 0, 0, 0, 0⟩ ⟨-3, 2⟩, [⟨0, -2, -1, 0, ⟨1, 1⟩, ⟨2132904783522667, 59⟩⟩, ⟨0, -2, 0, 0, ⟨0, 0⟩, ⟨2694954017018505, 54⟩⟩, ⟨0, -2, 1, 0, ⟨0, 0⟩, ⟨2132904783522667, 56⟩⟩, ⟨1, -1, 0, 0, ⟨1, 2⟩, ⟨3458764513820541, 57⟩⟩, ⟨1, -1, 1, 0, ⟨1, 2⟩, ⟨5706961447803893, 59⟩⟩, ⟨0, 0, 1, 0, ⟨0, 0⟩, ⟨5762806083183287, 53⟩⟩, ⟨0, 0, 2, 0, ⟨0, 0⟩, ⟨4835064559944965, 55⟩⟩, ⟨0, 0, 3, 0, ⟨0, 0⟩, ⟨2478781234904721, 58⟩⟩]⟩,
  ⟨"UPS1", ⟨3339364345512235, 56⟩, ⟨54481010264061, 55⟩, some 27, .primary ⟨1, 4, 0, -1, 0, 0⟩ ⟨-3, 2⟩, [⟨0, -2, 0, 0, ⟨0, 0⟩, ⟨4402718995717397, 56⟩⟩, ⟨0, 0, 1, 0, ⟨0, 0⟩, ⟨5763706803108761, 53⟩⟩, ⟨0, 0, 2, 0, ⟨0, 0⟩, ⟨4748595447099451, 55⟩⟩, ⟨1, 1, 0, 0, ⟨1, 2⟩, ⟨8329857870784469, 58⟩⟩, ⟨1, 1, 1, 0, ⟨1, 2⟩, ⟨462970041693687, 54⟩⟩]⟩,
  ⟨"ST36", ⟨5285812444739517, 56⟩, ⟨0, 0⟩, none, .shallow [(47, ⟨2, 0⟩), (41, ⟨1, 0⟩), (56, ⟨-2, 0⟩)], []⟩,
  ⟨"2NS2", ⟨2690096048952295, 55⟩, ⟨0, 0⟩, none, .shallow [(41, ⟨2, 0⟩), (56, ⟨-1, 0⟩)], []⟩,
  ⟨"ST37", ⟨5394774465267639, 56⟩, ⟨0, 0⟩, none, .shallow [(47, ⟨3, 0⟩), (56, ⟨-2, 0⟩)], []⟩,
  ⟨"ST1", ⟨5396632693708449, 56⟩, ⟨0, 0⟩, none, .shallow [(41, ⟨2, 0⟩), (58, ⟨1, 0⟩), (56, ⟨-2, 0⟩)], []⟩,
  ⟨"OQ2", ⟨2737285875534831, 55⟩, ⟨7291183681525, 55⟩, some 34, .primary ⟨2, -3, 0, 3, 0, 0⟩ ⟨0, 0⟩, [⟨2, -1, 0, 0, ⟨1, 2⟩, ⟨7508401298752091, 56⟩⟩, ⟨0, 0, -1, 0, ⟨1, 1⟩, ⟨5562846259728037, 57⟩⟩]⟩,
  ⟨"EPS2", ⟨686144264804089, 53⟩, ⟨5898728773177, 52⟩, some 38, .primary ⟨2, -3, 2, 1, 0, 0⟩ ⟨0, 0⟩, [⟨2, -1, -1, 0, ⟨1, 2⟩, ⟨1080863910568919, 57⟩⟩, ⟨2, -1, 0, 0, ⟨1, 2⟩, ⟨2896715280324703, 56⟩⟩, ⟨0, 0, -1, 0, ⟨1, 1⟩, ⟨335968532201839, 53⟩⟩]⟩,
  ⟨"ST2", ⟨2752797360721165, 55⟩, ⟨0, 0⟩, none, .shallow [(47, ⟨1, 0⟩), (41, ⟨1, 0⟩), (58, ⟨1, 0⟩), (56, ⟨-2, 0⟩)], []⟩,
  ⟨"ST3", ⟨5565234954558875, 56⟩, ⟨0, 0⟩, none, .shallow [(47, ⟨2, 0⟩), (56, ⟨1, 0⟩), (58, ⟨-2, 0⟩)], []⟩,
  ⟨"O2", ⟨2790837775181367, 55⟩, ⟨0, 0⟩, none, .shallow [(12, ⟨2, 0⟩)], []⟩,
  ⟨"2N2", ⟨697941722350443, 53⟩, ⟨14582367363049, 56⟩, some 39, .primary ⟨2, -2, 0, 2, 0, 0⟩ ⟨0, 0⟩, [⟨0, -2, -2, 0, ⟨1, 1⟩, ⟨7032821178101767, 60⟩⟩, ⟨2, -1, -1, 0, ⟨1, 2⟩, ⟨6744590801950055, 59⟩⟩, ⟨2, -1, 0, 0, ⟨1, 2⟩, ⟨2442752437885757, 55⟩⟩, ⟨0, 0, -1, 0, ⟨1, 1⟩, ⟨2694954017018505, 56⟩⟩]⟩,
  ⟨"MU2", ⟨5598116146166593, 56⟩, ⟨94379653165073, 56⟩, some 41, .primary ⟨2, -2, 2, 0, 0, 0⟩ ⟨0, 0⟩, [⟨2, -1, -1, 0, ⟨1, 2⟩, ⟨4150517416584649, 61⟩⟩, ⟨2, -1, 0, 0, ⟨1, 2⟩, ⟨1498797955988901, 57⟩⟩, ⟨0, 0, -1, 0, ⟨1, 1⟩, ⟨5404319552844595, 57⟩⟩]⟩]

/-- `ut_constants.npz`, catalogue positions 40 to 59. -/
def catalogue2 : List Con := [
  ⟨"SNK2", ⟨5676055203527807, 56⟩, ⟨0, 0⟩, none, .shallow [(56, ⟨1, 0⟩), (41, ⟨1, 0⟩), (58, ⟨-1, 0⟩)], []⟩,
  ⟨"N2", ⟨2846247899665833, 55⟩, ⟨108962027733881, 56⟩, some 47, .primary ⟨2, -1, 0, 1, 0, 0⟩ ⟨0, 0⟩, [⟨0, -2, -2, 0, ⟨1, 1⟩, ⟨4496393867966703, 60⟩⟩, ⟨0, -1, 0, 1, ⟨0, 0⟩, ⟨7378697629483821, 63⟩⟩, ⟨0, 0, -2, 0, ⟨0, 0⟩, ⟨1152921504606847, 61⟩⟩, ⟨0, 0, -1, 0, ⟨1, 1⟩, ⟨335968532201839, 53⟩⟩]⟩,
  ⟨"NU2", ⟨5707078166694715, 56⟩, ⟨14582367363049, 56⟩, some 41, .primary ⟨2, -1, 2, -1, 0, 0⟩ ⟨0, 0⟩, [⟨0, 0, -1, 0, ⟨1, 1⟩, ⟨335968532201839, 53⟩⟩, ⟨2, 1, 0, 0, ⟨3, 2⟩, ⟨4842270319348757, 60⟩⟩, ⟨0, 2, 0, 0, ⟨0, 0⟩, ⟨4842270319348757, 60⟩⟩, ⟨0, 2, 1, 0, ⟨1, 1⟩, ⟨4150517416584649, 60⟩⟩]⟩,
  ⟨"ST4", ⟨715672123867423, 53⟩, ⟨0, 0⟩, none, .shallow [(58, ⟨2, 0⟩), (41, ⟨1, 0⟩), (56, ⟨-2, 0⟩)], []⟩,
  ⟨"OP2", ⟨723127153907711, 53⟩, ⟨0, 0⟩, none, .shallow [(12, ⟨1, 0⟩), (18, ⟨1, 0⟩)], []⟩,
  ⟨"GAM2", ⟨2893437726248369, 55⟩, ⟨6362469380767, 56⟩, some 46, .primary ⟨2, 0, -2, 2, 0, 0⟩ ⟨-1, 1⟩, [⟨0, -2, -2, 0, ⟨0, 0⟩, ⟨5148515094009951, 55⟩⟩, ⟨2, -1, 0, 0, ⟨1, 2⟩, ⟨4222575010622577, 57⟩⟩, ⟨0, 0, -1, 0, ⟨1, 1⟩, ⟨1188950301625811, 55⟩⟩]⟩,
  ⟨"H1", ⟨5793237921877505, 56⟩, ⟨4109952594021, 55⟩, some 47, .primary ⟨2, 0, -1, 0, 0, 1⟩ ⟨-1, 1⟩, [⟨0, 0, -1, 0, ⟨1, 1⟩, ⟨6456360425798343, 58⟩⟩, ⟨0, 1, 0, -1, ⟨1, 1⟩, ⟨6441948906990757, 57⟩⟩]⟩,
  ⟨"M2", ⟨5801457827065547, 56⟩, ⟨5801457827065547, 56⟩, some 0, .primary ⟨2, 0, 0, 0, 0, 0⟩ ⟨0, 0⟩, [⟨2, -1, -1, 0, ⟨3, 2⟩, ⟨7378697629483821, 66⟩⟩, ⟨2, -1, 0, 0, ⟨3, 2⟩, ⟨7378697629483821, 64⟩⟩, ⟨0, 0, -2, 0, ⟨0, 0⟩, ⟨1152921504606847, 61⟩⟩, ⟨0, 0, -1, 0, ⟨1, 1⟩, ⟨335968532201839, 53⟩⟩, ⟨2, 1, -1, 0, ⟨1, 2⟩, ⟨7378697629483821, 66⟩⟩, ⟨2, 1, 0, 0, ⟨3, 2⟩, ⟨4150517416584649, 62⟩⟩, ⟨2, 1, 1, 0, ⟨3, 2⟩, ⟨7378697629483821, 65⟩⟩, ⟨0, 2, 0, 0, ⟨0, 0⟩, ⟨5534023222112865, 63⟩⟩, ⟨0, 2, 1, 0, ⟨0, 0⟩, ⟨7378697629483821, 65⟩⟩]⟩,
  ⟨"H2", ⟨5809677732253589, 56⟩, ⟨4109952594021, 55⟩, some 47, .primary ⟨2, 0, 1, 0, 0, -1⟩ ⟨0, 0⟩, [⟨0, 0, -1, 0, ⟨1, 1⟩, ⟨6254599162492145, 58⟩⟩]⟩,
  ⟨"MKS2", ⟨2908949211434703, 55⟩, ⟨16440595803859, 56⟩, some 47, .shallow [(47, ⟨1, 0⟩), (58, ⟨1, 0⟩), (56, ⟨-1, 0⟩)], []⟩,
  ⟨"ST5", ⟨5834339018673265, 56⟩, ⟨0, 0⟩, none, .shallow [(47, ⟨1, 0⟩), (58, ⟨2, 0⟩), (56, ⟨-2, 0⟩)], []⟩,
  ⟨"ST6", ⟨5879396884426761, 56⟩, ⟨0, 0⟩, none, .shallow [(56, ⟨2, 0⟩), (41, ⟨1, 0⟩), (47, ⟨-1, 0⟩), (58, ⟨-1, 0⟩)], []⟩,
  ⟨"LDA2", ⟨1473959370057655, 54⟩, ⟨14582367363049, 56⟩, some 53, .primary ⟨2, 1, -2, 1, 0, 0⟩ ⟨-1, 1⟩, [⟨0, 0, -1, 0, ⟨1, 1⟩, ⟨6456360425798343, 57⟩⟩]⟩,
  ⟨"L2", ⟨5910419847593669, 56⟩, ⟨94379653165073, 56⟩, some 56, .primary ⟨2, 1, 0, -1, 0, 0⟩ ⟨-1, 1⟩, [⟨0, 0, -1, 0, ⟨1, 1⟩, ⟨5274615883576325, 57⟩⟩, ⟨0, 2, -1, 0, ⟨0, 0⟩, ⟨5418731071652181, 60⟩⟩, ⟨0, 2, 0, 0, ⟨1, 1⟩, ⟨4512606826625237, 54⟩⟩, ⟨0, 2, 1, 0, ⟨1, 1⟩, ⟨7940746862979659, 56⟩⟩, ⟨0, 2, 2, 0, ⟨1, 1⟩, ⟨4496393867966703, 58⟩⟩]⟩,
  ⟨"2SK2", ⟨5988358904954883, 56⟩, ⟨0, 0⟩, none, .shallow [(56, ⟨2, 0⟩), (58, ⟨-1, 0⟩)], []⟩,
  ⟨"T2", ⟨1499144898892675, 54⟩, ⟨4109952594021, 55⟩, some 56, .primary ⟨2, 2, -3, 0, 0, 1⟩ ⟨0, 0⟩, []⟩,
  ⟨"S2", ⟨3002399750379371, 55⟩, ⟨203341673693195, 56⟩, some 47, .primary ⟨2, 2, -2, 0, 0, 0⟩ ⟨0, 0⟩, [⟨0, 0, -1, 0, ⟨0, 0⟩, ⟨5072854620270127, 61⟩⟩, ⟨2, 1, 0, 0, ⟨3, 2⟩, ⟨7378697629483821, 66⟩⟩, ⟨0, 2, 0, 0, ⟨0, 0⟩, ⟨7378697629483821, 66⟩⟩]⟩,
  ⟨"R2", ⟨187906856435837, 51⟩, ⟨4109952594021, 55⟩, some 56, .primary ⟨2, 2, -1, 0, 0, -1⟩ ⟨-1, 1⟩, [⟨0, 0, 0, 2, ⟨1, 1⟩, ⟨4566650022153683, 54⟩⟩, ⟨0, 0, 1, 2, ⟨0, 0⟩, ⟨8128096607478271, 59⟩⟩]⟩,
  ⟨"K2", ⟨6021240096562601, 56⟩, ⟨16440595803859, 56⟩, some 56, .primary ⟨2, 2, 0, 0, 0, 0⟩ ⟨0, 0⟩, [⟨2, -1, 0, 0, ⟨3, 2⟩, ⟨5534023222112865, 61⟩⟩, ⟨2, -1, 1, 0, ⟨3, 2⟩, ⟨7378697629483821, 64⟩⟩, ⟨0, 0, -1, 0, ⟨1, 1⟩, ⟨7378697629483821, 59⟩⟩, ⟨0, 0, 1, 0, ⟨0, 0⟩, ⟨5368290755825631, 54⟩⟩, ⟨0, 0, 2, 0, ⟨0, 0⟩, ⟨2334666046828865, 56⟩⟩]⟩,
  ⟨"MSN2", ⟨6113761528492623, 56⟩, ⟨16440595803859, 56⟩, some 60, .shallow [(47, ⟨1, 0⟩), (56, ⟨1, 0⟩), (41, ⟨-1, 0⟩)], []⟩]

/-- `ut_constants.npz`, catalogue positions 60 to 79. -/
def catalogue3 : List Con := [
  ⟨"ETA2", ⟨3065101062148241, 55⟩, ⟨108962027733881, 56⟩, some 58, .primary ⟨2, 3, 0, -1, 0, 0⟩ ⟨0, 0⟩, [⟨0, 0, -1, 0, ⟨1, 1⟩, ⟨2694954017018505, 57⟩⟩, ⟨0, 0, 1, 0, ⟨0, 0⟩, ⟨1961317637719851, 52⟩⟩, ⟨0, 0, 2, 0, ⟨0, 0⟩, ⟨6730179283142469, 57⟩⟩, ⟨2, 1, 0, 0, ⟨3, 2⟩, ⟨5382702274633217, 56⟩⟩, ⟨2, 1, 1, 0, ⟨3, 2⟩, ⟨6946352065256253, 57⟩⟩, ⟨2, 1, 2, 0, ⟨3, 2⟩, ⟨2680542498210919, 58⟩⟩, ⟨0, 2, 0, 0, ⟨1, 1⟩, ⟨4496393867966703, 59⟩⟩]⟩,
  ⟨"ST7", ⟨6146642720100341, 56⟩, ⟨0, 0⟩, none, .shallow [(58, ⟨2, 0⟩), (47, ⟨1, 0⟩), (56, ⟨-1, 0⟩), (41, ⟨-1, 0⟩)], []⟩,
  ⟨"2SM2", ⟨6208141181657695, 56⟩, ⟨0, 0⟩, none, .shallow [(56, ⟨2, 0⟩), (47, ⟨-1, 0⟩)], []⟩,
  ⟨"ST38", ⟨6222723549020745, 56⟩, ⟨0, 0⟩, none, .shallow [(47, ⟨2, 0⟩), (56, ⟨1, 0⟩), (41, ⟨-2, 0⟩)], []⟩,
  ⟨"SKM2", ⟨3112290888730777, 55⟩, ⟨0, 0⟩, none, .shallow [(56, ⟨1, 0⟩), (58, ⟨1, 0⟩), (47, ⟨-1, 0⟩)], []⟩,
  ⟨"2SN2", ⟨6317103209391577, 56⟩, ⟨0, 0⟩, none, .shallow [(56, ⟨2, 0⟩), (41, ⟨-1, 0⟩)], []⟩,
  ⟨"NO3", ⟨1060416697264489, 53⟩, ⟨0, 0⟩, none, .shallow [(41, ⟨1, 0⟩), (12, ⟨1, 0⟩)], []⟩,
  ⟨"MO3", ⟨4296147799322017, 55⟩, ⟨109891138351407, 56⟩, some 68, .shallow [(47, ⟨1, 0⟩), (12, ⟨1, 0⟩)], []⟩,
  ⟨"M3", ⟨8702186736995441, 56⟩, ⟨1450364454964947, 55⟩, some 47, .primary ⟨3, 0, 0, 0, 0, 0⟩ ⟨-1, 1⟩, [⟨0, 0, -1, 0, ⟨1, 1⟩, ⟨8128096607478271, 57⟩⟩]⟩,
  ⟨"NK3", ⟨4351557923806483, 55⟩, ⟨0, 0⟩, none, .shallow [(41, ⟨1, 0⟩), (20, ⟨1, 0⟩)], []⟩,
  ⟨"SO3", ⟨2198909319885747, 54⟩, ⟨16440595803859, 56⟩, some 71, .shallow [(56, ⟨1, 0⟩), (12, ⟨1, 0⟩)], []⟩,
  ⟨"MK3", ⟨8812077875346847, 56⟩, ⟨54945569175703, 55⟩, some 68, .shallow [(47, ⟨1, 0⟩), (20, ⟨1, 0⟩)], []⟩,
  ⟨"SP3", ⟨8998978953236183, 56⟩, ⟨0, 0⟩, none, .shallow [(56, ⟨1, 0⟩), (18, ⟨1, 0⟩)], []⟩,
  ⟨"SK3", ⟨4507709778122901, 55⟩, ⟨203341680898955, 56⟩, some 71, .shallow [(56, ⟨1, 0⟩), (20, ⟨1, 0⟩)], []⟩,
  ⟨"ST8", ⟨5645305972749129, 55⟩, ⟨0, 0⟩, none, .shallow [(47, ⟨2, 0⟩), (41, ⟨1, 0⟩), (56, ⟨-1, 0⟩)], []⟩,
  ⟨"N4", ⟨2846247899665833, 54⟩, ⟨0, 0⟩, none, .shallow [(41, ⟨2, 0⟩)], []⟩,
  ⟨"3MS4", ⟨2849893493308035, 54⟩, ⟨0, 0⟩, none, .shallow [(47, ⟨3, 0⟩), (56, ⟨-1, 0⟩)], []⟩,
  ⟨"ST39", ⟨5738756515296677, 55⟩, ⟨0, 0⟩, none, .shallow [(47, ⟨1, 0⟩), (56, ⟨1, 0⟩), (41, ⟨1, 0⟩), (58, ⟨-1, 0⟩)], []⟩,
  ⟨"MN4", ⟨2873488406599303, 54⟩, ⟨54481010264061, 55⟩, some 81, .shallow [(47, ⟨1, 0⟩), (41, ⟨1, 0⟩)], []⟩,
  ⟨"ST9", ⟨719399638887567, 52⟩, ⟨0, 0⟩, none, .shallow [(47, ⟨1, 0⟩), (41, ⟨1, 0⟩), (58, ⟨1, 0⟩), (56, ⟨-1, 0⟩)], []⟩]

/-- `ut_constants.npz`, catalogue positions 80 to 99. -/
def catalogue4 : List Con := [
  ⟨"ST40", ⟨2896618762780369, 54⟩, ⟨0, 0⟩, none, .shallow [(47, ⟨2, 0⟩), (56, ⟨1, 0⟩), (58, ⟨-1, 0⟩)], []⟩,
  ⟨"M4", ⟨5801457823462667, 55⟩, ⟨2900728909929893, 56⟩, some 68, .shallow [(47, ⟨2, 0⟩)], []⟩,
  ⟨"ST10", ⟨5809678121364597, 55⟩, ⟨0, 0⟩, none, .shallow [(47, ⟨2, 0⟩), (58, ⟨1, 0⟩), (56, ⟨-1, 0⟩)], []⟩,
  ⟨"SN4", ⟨1462161912511301, 53⟩, ⟨47189826582537, 55⟩, some 81, .shallow [(56, ⟨1, 0⟩), (41, ⟨1, 0⟩)], []⟩,
  ⟨"KN4", ⟨5856867951550013, 55⟩, ⟨0, 0⟩, none, .shallow [(58, ⟨1, 0⟩), (41, ⟨1, 0⟩)], []⟩,
  ⟨"MS4", ⟨368945541494509, 51⟩, ⟨101670840449477, 55⟩, some 81, .shallow [(47, ⟨1, 0⟩), (56, ⟨1, 0⟩)], []⟩,
  ⟨"MK4", ⟨2955674480907037, 54⟩, ⟨4110148950965, 54⟩, some 85, .shallow [(47, ⟨1, 0⟩), (58, ⟨1, 0⟩)], []⟩,
  ⟨"SL4", ⟨5957609674176205, 55⟩, ⟨0, 0⟩, none, .shallow [(56, ⟨1, 0⟩), (53, ⟨1, 0⟩)], []⟩,
  ⟨"S4", ⟨6004799504361621, 55⟩, ⟨101670840449477, 55⟩, some 85, .shallow [(56, ⟨2, 0⟩)], []⟩,
  ⟨"SK4", ⟨6013019802263551, 55⟩, ⟨4110148950965, 54⟩, some 88, .shallow [(56, ⟨1, 0⟩), (58, ⟨1, 0⟩)], []⟩,
  ⟨"MNO5", ⟨3571197849493925, 54⟩, ⟨0, 0⟩, none, .shallow [(47, ⟨1, 0⟩), (41, ⟨1, 0⟩), (12, ⟨1, 0⟩)], []⟩,
  ⟨"2MO5", ⟨7196876712854791, 55⟩, ⟨0, 0⟩, none, .shallow [(47, ⟨2, 0⟩), (12, ⟨1, 0⟩)], []⟩,
  ⟨"3MP5", ⟨450318563172295, 51⟩, ⟨0, 0⟩, none, .shallow [(47, ⟨3, 0⟩), (18, ⟨-1, 0⟩)], []⟩,
  ⟨"MNK5", ⟨906535854667407, 52⟩, ⟨0, 0⟩, none, .shallow [(47, ⟨1, 0⟩), (41, ⟨1, 0⟩), (20, ⟨1, 0⟩)], []⟩,
  ⟨"2MP5", ⟨1824636887425347, 53⟩, ⟨0, 0⟩, none, .shallow [(47, ⟨2, 0⟩), (18, ⟨1, 0⟩)], []⟩,
  ⟨"2MK5", ⟨7306767847603317, 55⟩, ⟨752655012070325, 54⟩, some 81, .shallow [(47, ⟨2, 0⟩), (20, ⟨1, 0⟩)], []⟩,
  ⟨"MSK5", ⟨3704219344026397, 54⟩, ⟨0, 0⟩, none, .shallow [(47, ⟨1, 0⟩), (56, ⟨1, 0⟩), (20, ⟨1, 0⟩)], []⟩,
  ⟨"3KM5", ⟨1854164746488681, 53⟩, ⟨0, 0⟩, none, .shallow [(58, ⟨1, 0⟩), (20, ⟨1, 0⟩), (47, ⟨1, 0⟩)], []⟩,
  ⟨"2SK5", ⟨7510109528502271, 55⟩, ⟨101670840449477, 54⟩, some 95, .shallow [(56, ⟨2, 0⟩), (20, ⟨1, 0⟩)], []⟩,
  ⟨"ST11", ⟨2136741000125577, 53⟩, ⟨0, 0⟩, none, .shallow [(41, ⟨3, 0⟩), (58, ⟨1, 0⟩), (56, ⟨-1, 0⟩)], []⟩]

/-- `ut_constants.npz`, catalogue positions 100 to 119. -/
def catalogue5 : List Con := [
  ⟨"2NM6", ⟨8593224712864439, 55⟩, ⟨0, 0⟩, none, .shallow [(41, ⟨2, 0⟩), (47, ⟨1, 0⟩)], []⟩,
  ⟨"ST12", ⟨8601445010766369, 55⟩, ⟨0, 0⟩, none, .shallow [(41, ⟨2, 0⟩), (47, ⟨1, 0⟩), (58, ⟨1, 0⟩), (56, ⟨-1, 0⟩)], []⟩,
  ⟨"2MN6", ⟨2161926430782125, 53⟩, ⟨54481013866941, 55⟩, some 105, .shallow [(47, ⟨2, 0⟩), (41, ⟨1, 0⟩)], []⟩,
  ⟨"ST13", ⟨8655926024633309, 55⟩, ⟨0, 0⟩, none, .shallow [(47, ⟨2, 0⟩), (41, ⟨1, 0⟩), (58, ⟨1, 0⟩), (56, ⟨-1, 0⟩)], []⟩,
  ⟨"ST41", ⟨8693966439093511, 55⟩, ⟨0, 0⟩, none, .shallow [(47, ⟨3, 0⟩), (56, ⟨1, 0⟩), (58, ⟨-1, 0⟩)], []⟩,
  ⟨"M6", ⟨8702186736995441, 55⟩, ⟨348854722348031, 53⟩, some 95, .shallow [(47, ⟨3, 0⟩)], []⟩,
  ⟨"MSN6", ⟨8749376563577977, 55⟩, ⟨0, 0⟩, none, .shallow [(47, ⟨1, 0⟩), (56, ⟨1, 0⟩), (41, ⟨1, 0⟩)], []⟩,
  ⟨"MKN6", ⟨8757596861479907, 55⟩, ⟨0, 0⟩, none, .shallow [(47, ⟨1, 0⟩), (58, ⟨1, 0⟩), (41, ⟨1, 0⟩)], []⟩,
  ⟨"ST42", ⟨2198909319885747, 53⟩, ⟨0, 0⟩, none, .shallow [(47, ⟨2, 0⟩), (56, ⟨2, 0⟩), (58, ⟨-1, 0⟩)], []⟩,
  ⟨"2MS6", ⟨4401928788722459, 54⟩, ⟨101670840449477, 55⟩, some 105, .shallow [(47, ⟨2, 0⟩), (56, ⟨1, 0⟩)], []⟩,
  ⟨"2MK6", ⟨8812077875346847, 55⟩, ⟨8220297901929, 55⟩, some 109, .shallow [(47, ⟨2, 0⟩), (58, ⟨1, 0⟩)], []⟩,
  ⟨"NSK6", ⟨1107408462741173, 52⟩, ⟨0, 0⟩, none, .shallow [(41, ⟨1, 0⟩), (56, ⟨1, 0⟩), (58, ⟨1, 0⟩)], []⟩,
  ⟨"2SM6", ⟨8905528414291515, 55⟩, ⟨101670836846597, 55⟩, some 109, .shallow [(56, ⟨2, 0⟩), (47, ⟨1, 0⟩)], []⟩,
  ⟨"MSK6", ⟨8913748712193445, 55⟩, ⟨4110148950965, 54⟩, some 112, .shallow [(47, ⟨1, 0⟩), (56, ⟨1, 0⟩), (58, ⟨1, 0⟩)], []⟩,
  ⟨"S6", ⟨1, 2⟩, ⟨0, 0⟩, none, .shallow [(56, ⟨3, 0⟩)], []⟩,
  ⟨"ST14", ⟨627695288282539, 51⟩, ⟨0, 0⟩, none, .shallow [(47, ⟨2, 0⟩), (41, ⟨1, 0⟩), (12, ⟨1, 0⟩)], []⟩,
  ⟨"ST15", ⟨5049267368502545, 54⟩, ⟨0, 0⟩, none, .shallow [(41, ⟨2, 0⟩), (47, ⟨1, 0⟩), (20, ⟨1, 0⟩)], []⟩,
  ⟨"M7", ⟨2538137797990097, 53⟩, ⟨0, 0⟩, none, .shallow [(47, ⟨7, 1⟩)], []⟩,
  ⟨"ST16", ⟨5099638231617081, 54⟩, ⟨0, 0⟩, none, .shallow [(47, ⟨2, 0⟩), (56, ⟨1, 0⟩), (12, ⟨1, 0⟩)], []⟩,
  ⟨"3MK7", ⟨2551874190284023, 53⟩, ⟨1505310024140651, 55⟩, some 105, .shallow [(47, ⟨3, 0⟩), (20, ⟨1, 0⟩)], []⟩]

/-- `ut_constants.npz`, catalogue positions 120 to 139. -/
def catalogue6 : List Con := [
  ⟨"ST17", ⟨322161487549549, 50⟩, ⟨0, 0⟩, none, .shallow [(47, ⟨1, 0⟩), (56, ⟨1, 0⟩), (58, ⟨1, 0⟩), (12, ⟨1, 0⟩)], []⟩,
  ⟨"ST18", ⟨2873488406599303, 53⟩, ⟨0, 0⟩, none, .shallow [(47, ⟨2, 0⟩), (41, ⟨2, 0⟩)], []⟩,
  ⟨"3MN8", ⟨5774217318330637, 54⟩, ⟨0, 0⟩, none, .shallow [(47, ⟨3, 0⟩), (41, ⟨1, 0⟩)], []⟩,
  ⟨"ST19", ⟨2889163733640801, 53⟩, ⟨0, 0⟩, none, .shallow [(47, ⟨3, 0⟩), (41, ⟨1, 0⟩), (58, ⟨1, 0⟩), (56, ⟨-1, 0⟩)], []⟩,
  ⟨"M8", ⟨5801457825264107, 54⟩, ⟨697709444696061, 54⟩, some 119, .shallow [(47, ⟨4, 0⟩)], []⟩,
  ⟨"ST20", ⟨5825052738555375, 54⟩, ⟨0, 0⟩, none, .shallow [(47, ⟨2, 0⟩), (56, ⟨1, 0⟩), (41, ⟨1, 0⟩)], []⟩,
  ⟨"ST21", ⟨1457290721876585, 52⟩, ⟨0, 0⟩, none, .shallow [(47, ⟨2, 0⟩), (41, ⟨1, 0⟩), (58, ⟨1, 0⟩)], []⟩,
  ⟨"3MS8", ⟨2926146621843703, 53⟩, ⟨0, 0⟩, none, .shallow [(47, ⟨3, 0⟩), (56, ⟨1, 0⟩)], []⟩,
  ⟨"3MK8", ⟨5856403392638371, 54⟩, ⟨0, 0⟩, none, .shallow [(47, ⟨3, 0⟩), (58, ⟨1, 0⟩)], []⟩,
  ⟨"ST22", ⟨5879998307731079, 54⟩, ⟨0, 0⟩, none, .shallow [(47, ⟨1, 0⟩), (56, ⟨1, 0⟩), (41, ⟨1, 0⟩), (58, ⟨1, 0⟩)], []⟩,
  ⟨"ST23", ⟨368945541494509, 50⟩, ⟨0, 0⟩, none, .shallow [(47, ⟨2, 0⟩), (56, ⟨2, 0⟩)], []⟩,
  ⟨"ST24", ⟨5907238812863109, 54⟩, ⟨0, 0⟩, none, .shallow [(47, ⟨2, 0⟩), (56, ⟨1, 0⟩), (58, ⟨1, 0⟩)], []⟩,
  ⟨"ST25", ⟨6499631825268931, 54⟩, ⟨0, 0⟩, none, .shallow [(47, ⟨2, 0⟩), (41, ⟨2, 0⟩), (20, ⟨1, 0⟩)], []⟩,
  ⟨"ST26", ⟨3263436165200481, 53⟩, ⟨0, 0⟩, none, .shallow [(47, ⟨3, 0⟩), (41, ⟨1, 0⟩), (20, ⟨1, 0⟩)], []⟩,
  ⟨"4MK9", ⟨204816026166701, 49⟩, ⟨0, 0⟩, none, .shallow [(47, ⟨4, 0⟩), (20, ⟨1, 0⟩)], []⟩,
  ⟨"ST27", ⟨6604948255757731, 54⟩, ⟨0, 0⟩, none, .shallow [(47, ⟨3, 0⟩), (56, ⟨1, 0⟩), (20, ⟨1, 0⟩)], []⟩,
  ⟨"ST28", ⟨112884090235891, 48⟩, ⟨0, 0⟩, none, .shallow [(47, ⟨4, 0⟩), (41, ⟨1, 0⟩)], []⟩,
  ⟨"M10", ⟨3625911140114527, 53⟩, ⟨0, 0⟩, none, .shallow [(47, ⟨5, 0⟩)], []⟩,
  ⟨"ST29", ⟨3637708596760161, 53⟩, ⟨0, 0⟩, none, .shallow [(47, ⟨3, 0⟩), (41, ⟨1, 0⟩), (56, ⟨1, 0⟩)], []⟩,
  ⟨"ST30", ⟨7302657700453793, 54⟩, ⟨0, 0⟩, none, .shallow [(47, ⟨4, 0⟩), (56, ⟨1, 0⟩)], []⟩]

/-- `ut_constants.npz`, catalogue positions 140 to 145. -/
def catalogue7 : List Con := [
  ⟨"ST31", ⟨7330362762696025, 54⟩, ⟨0, 0⟩, none, .shallow [(47, ⟨2, 0⟩), (41, ⟨1, 0⟩), (56, ⟨1, 0⟩), (58, ⟨1, 0⟩)], []⟩,
  ⟨"ST32", ⟨7353493120678531, 54⟩, ⟨0, 0⟩, none, .shallow [(47, ⟨3, 0⟩), (56, ⟨2, 0⟩)], []⟩,
  ⟨"ST33", ⟨4027656356262059, 53⟩, ⟨0, 0⟩, none, .shallow [(47, ⟨4, 0⟩), (56, ⟨1, 0⟩), (20, ⟨1, 0⟩)], []⟩,
  ⟨"M12", ⟨8702186736995441, 54⟩, ⟨0, 0⟩, none, .shallow [(47, ⟨6, 0⟩)], []⟩,
  ⟨"ST34", ⟨8753022157220179, 54⟩, ⟨0, 0⟩, none, .shallow [(47, ⟨5, 0⟩), (56, ⟨1, 0⟩)], []⟩,
  ⟨"ST35", ⟨2195181804865603, 52⟩, ⟨0, 0⟩, none, .shallow [(47, ⟨3, 0⟩), (41, ⟨1, 0⟩), (58, ⟨1, 0⟩), (56, ⟨1, 0⟩)], []⟩]

/-- `ut_constants.const`, `.sat` and `.shallow` (`_ut_constants.py` 14-16), all 146 constituents. -/
def catalogue : List Con :=
  catalogue0 ++ catalogue1 ++ catalogue2 ++ catalogue3 ++ catalogue4 ++ catalogue5 ++ catalogue6 ++ catalogue7

end UTide
