import Verif.Proofs.TaylorModel

/-!
# Data for the phase function of the Gauss-Legendre asymptotics

Numbers only: the coefficients (scaled by 10^32) of a polynomial `η(x, y)` with `θ = α (1 + w² η)`, where `x = 0.4 α²` and `y = w² · 10302.25`,
chosen so that the transformed Legendre equation agrees with Bessel's equation up to about 1e-15.  Nothing is assumed about them; the
kernel checks below establish what is needed.
-/

namespace GaussQuad.Phase

/-- coefficients of `η` -/
def H : List (List Int) := [
  [-4166666666666666666666666666667, -694444444444444444444444444444, -165343915343915343915343915344, -41335978835978835978835978836, -10438378493934049489605045161, -2642095069343746592423841101, -669126826534233941641349049, -169484014816129143341509770, -42930310281389222820679527, -10874343492790309365207582, -2754501414180114757601326, -697723234290626167035384, -176735351981473373584661, -44767587135187734252013, -11339762261688415301555, -2872395334436101222632, -727586237807432450933, -184299747033265508909, -46683671285475223360, -11825112078503149673, -2995335881241067152, -758727442234145131, -192187906272709412, -48681765363233455, -12331235221003405, -3123538370910372, -791201512232246],
  [79203302406971508381394571, 48281648377096782380417832, 23839899787306098225234013, 10046011576826042921636926, 3827110793174181580585671, 1361637048845451763206198, 461282457466915119015714, 150630930030753241489644, 47804461456531721490210, 14829481506437261341186, 4515438892753515019290, 1353780074252692786535, 400601924736332286809, 117222940292023682463, 33970364960251365825, 9761262177509853421, 2783978994956284008, 788756785427506361, 222148191040867257, 62233505859016028, 17350405372582882, 4816044404065661, 1331476001562047, 366761551439970, 100686187505833, 27555279973049, 7519503409459],
  [-3919601159189251687740, -5135422903760155198343, -4353813375946110478496, -2797244536514735979668, -1508023278506562371968, -721022810618882336221, -315961142788758752952, -129597551440461223154, -50469137366523161345, -18849670871521205342, -6802173937332241598, -2385003478731847709, -816036595364975156, -273398573237559779, -89938089642863238, -29115655387266916, -9292883722316225, -2928794018640344, -912662453607434, -281513433691556, -86034358217342, -26072869654228, -7840860093742, -2341378514008, -694632451919, -204846630716, -60073659473],
  [395752665356321210, 895014868683041432, 1162742156159691473, 1060545071188277902, 769976652530088450, 476918909563402551, 262797591123654665, 132380188197015228, 62109553895441216, 27506578599771937, 11613493075468755, 4709967079883393, 1845692622762878, 702134919156446, 260282272466758, 94314493812437, 33491934601643, 11680686131048, 4008279950191, 1355467677288, 452321772762, 149121870854, 48619967133, 15691246913, 5016654725, 1589976496, 499872912]]

end GaussQuad.Phase
