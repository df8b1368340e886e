import Verif.Lemmas.NyStabPoly

/-!
# Certificates for the stability regions of the Nystrom methods

Generated by `/verif/tools/gen_nystab.py`, checked here by the kernel. Proof machinery for `Props/NystromStability.lean`.
-/

set_option maxRecDepth 1000000

namespace Extensisq

/-- The trace and the determinant for `Mu5Nmb`, times `Mu5Nmb_nyN`. -/
def Mu5Nmb_nyN : ℕ := 2945924546631774165366716854129504681481051188817635936788473840257952212254577141739173406691215551679827193065214681090048561205709015276647430990553941774309484913476572489681580621657882306963903623129942958155767019597274781716619236522284826667478893736107585126354743502403879009699269467209434348768594481507366720294195735133909846717154829543976953448958068232834074517688689787294612448693582648265823821855210327324259040054791364130995252336055129736665666769070543215279792942683844661775411594240000000000

def Mu5Nmb_nyT : List (List ℤ) :=
    [[5891849093263548330733433708259009362962102377635271873576947680515904424509154283478346813382431103359654386130429362180097122411418030553294861981107883548618969826953144979363161243315764613927807246259885916311534039194549563433238473044569653334957787472215170252709487004807758019398538934418868697537188963014733440588391470267819693434309659087953906897916136465668149035377379574589224897387165296531647643710420654648518080109582728261990504672110259473331333538141086430559585885367689323550823188480000000000,
    2945924546631774165360945711194340665500078510843756657280060528964775026117934306296697492363367746392880036658357928694595844166822695860209557398963961386495441973251579877696805212303217019252247099802333461158290331707232829176127133096329623602026210136665667441116991491593653346813692045591136996054977383174153309444260060922337398108726267512750511343840300060039854460738107569439704041249513079413044731721021271216380318122914182607011423387336221698109203540880191818892478986798262245884266791680000000000,
    1472962273315887082480467905071640252471002390612272746005947899445192294212895781521643643262485637313775920745163618056499448629015481098876286862913913652320206005804401060708872388450920796533557097292757455893599107218233511638490173627388639777770726270831829847980963439954428735848318113567412757498926867589510490849562883064001882790361974000893907900594668625564137721504755545179513753687965867762947580697782846490629436330958277282846300830049996578999011569883598215356836941906105525969060265772160000000,
    490987424438629027435378191930922381882165924246508172544376691276033148653673364671390678543054180516270996580303801981785219001426377355088642271420335910174342032171188853046498879265892906217599466919625330545965740481607693728481128028461896276314426513507340662023720072284567797143035608904428040386392397196625211656091306795883973233048211179658669680298178094429440976502298333061014733382409604389433267150979476009843989812090573254466818102673373362402979082590308419226493650021499341313961713812032000000,
    122746856109657256841317098406147166750782611331284609249459248256035925562407924244052801766972939224378300331015649858898514996026869605978713598320875770587757938649779574298309485825435517395059382080733725431090483306849914851116967444423613287117079774812264748454249897518611328694833429893790637433215748232930847568869838654413560017341302541462582471640183901341230870442533408430182513895952268118534979502915715348928537916040101733826917146432711147699171885591946389743051530797618613814199303155426000000,
    24549371221931451357491793459210827322310541624439357577999089716274147203218695243493889492460480345399949938129441280046986741584413005788067918358461867172577476496858353079466274512359082123292131411396144886082041424299675819442399643959943080807894647773672939769789912901468236957766987070363032774299261333870194723506447266553191628909220079815359818276617235664688031145688555020685429907262513237657625205555052606852886387911940790881703715427370039715064418198152985068203437740816589068096757755463400000,
    4112215667822083999835961625111456511405346051820720916659486051166913413123898653328655356733083577806435510239614178644244943405855702290170922156615941650307182283774487499602439422821191157660871813454294339899972930311590444473932128651405717954643981642157253337304671674994942453000562652687957506293042308160974378508234906805661653915464377057822926654395083439678993100755944028978856726143660793377492591010914885589028332121062563688381400522765839875544109969218362597364268591697009686959312580139200000,
    546071661469228612075966604651949638886172433016946341717040471566402163255606867719426878687077469650299188139120962745632964369856404691385426274666508817894865380329389338792003407586339828491587065232508148861937904606619622641099535610266320500725144770003741981974349631502456042969201264583240776156773962397655621623460572743693225789578071568948884594269309449805959074860591900796406270599955318656772329121622391483489707568197532766102585623759279455548337001283200917422231839693261791708101424193900000,
    74054893914711736337836756363371331906987364450356012660387790091380304867861797539817713544707927275469899889953591468012632003661613470157720433617610963253762446471136259729950529659198168239251602949711544137896251904769850983712538586781972135330404364951438039106278240332728378684871456770465707058072800159111917298247986604964046797616686367072645267473105005467836962767703269974136777275923232323779643444057712941260380884233345615759513691266578101975121803287016913056523571626545844361636214298800000,
    7605171876503854511277450494924264843739099732337800825912125868655772348687755018798618641241998222439288053745674113965403746075316863114014875725748331499900380826922555638289143204246794298498753642489446363240669319490611993893919853972134219632681636617322182678631722312196137053767625398783786607403774384767801983436901815674683702289518107813885648008729495825390728462998334803037676090083974858512428694700949655111998152317086016034987682138777788317609519227098255283439697883264564968572591907200000],
    [2945924546631774165351479742338278359083095644041400511763026236845402211696751463206512393365099701923147476309872264916961453469775928603562949811234346117234900335925275364884396958856896518999884879686747623005217551679720893236311622246630839134151505468172713270169163682671321196609718392736326901093205821911183215083997752430852123840268174382394466979810844611521116098096644156876459956620995581683256457489886801411589763356312581697870835314667839283458905538341949658269986598959175759975954514732800000000,
    1472962273315887082553570169455335688939767718521815674894014024911843607956700352294006486705962343054807262048897101872511970267610654732263402230161139053986950103867864909672046240265174780165296844769709629221615509415435892595664282863129496658994762671699302401616353244609892014123893702572398604818727188489307593432959300446250258095642763024089080144836144726507391880788402247108175491817245336218362102827203362165097663263048147682722784820970862282309289314304663812513179156637543173992499993851168000000,
    490987424438629027464077965734882663278029364927430157750233707868963446681761555744029893797050036179097654791251802105376680542307032101752534422615697464173088106807091148537031998305139095232649967555207922919734827545595340001203448367767473749042021666810476905040307753269605619297980108198754362155614149301559442183594112427408340027530260086892427771499335160726955045404182717938741636777505727021596050750275116545134477937884372819102099297111848586978478749403443419601190554286846400309710776082363040000,
    122746856109657256844043610613149270165317181374260694431481822378368684301756994745395962579041769377563451349671090754684754903086372810318409301679382309289532568239093589965263305033314946936889673292634532431990758397278751650174823747641284705936494784473775645612700272996406594578179550545843499309069935329915684250266331639470490957244133723101429232249262677788795105742730072754105019054099722733081964165551155276747340860850725404692482354916551926253925861613284660300836833564498887263052948701442704000,
    24573904197018842935374040606010260680612039358442036618419128398395959855328347353466427049133127448323006249993182523750506022012951577335441156916697653631748078015738803489607779237543784785268412349782307456696181780756959820750726725981822497453858928582845633049363556486159810557938322430830032115851079109659790283036293979972098276057310942167890923677202002385468256115768336783547766243200440565145152929063163123007297589730833116346875404913618536793950020661617892243485409963577101437287996604237224000,
    4096741401831578486193622331958793948492938552446334872132439556183611868378360449030277722840277057300552139974085855188206701388065733904468906078904253056321746759630403973349494631692393363392784007971515098518039677034307179831613317348377026835250829698558994571852370524141097097307774969580287013534908261394586621389582937291510474465998008112657752110068167928782669421715522855294901345578587293165743107093757671122695513983790445519144886452501211407867282901683453901772591740721656542558628343071895200,
    535164426476907353932262854998697122443172313477214010278815530092022186348389104942831398193068204529611228186824929375727588586945278670018966600197818992319235367548261181818167425675426839350723636997984060134880533999424270693450561849541937335816250152609639934800913096505913672749530254521077279545470283103838161267934692373331116267688136309759436213256541699732635627925801407175811260328697813091211064527727764329257415061791553060003664519307032824078095266200691196276185913424807732312440878106743600,
    53191089731271485326612959662513007156189266350313818505966928989345082579825713993707329347452043264988848963729159385104455059852424963252322718007368445845829252075238989479215864913370795918781717588003421077134854273750769134655557882944724450140319889275385292280977463254718769706502688240430078143183671059510249540594331952781678864139992756094095941140918867004096454427169810785365462770281643004928711758966202114194759774950677076411668543878025045219838735861438395061457744728833152740389876935666400,
    2596251027476228379517098221661879327660935417565819802486056778805938301555423454298456081904404636890693374393762897502914985173998863212971556941492497378461474687558458988405563719278611843669001535006048574801865988770588234939988809875854748846085691245599293235214145754279795278779561264936761716119717971933691626044551775241625183957160123060084404768681690126327567100364878095921979070726764466333063349730653631155357228721297934770916603642943111047366537640066549087470264505148909127293070472400000],
    [245493712219314513782416729686040659750230924440865575643139742462079287928384235256640376275188387647995950960514353672668860863405361266051256028623062022526946551752623831520417290960456097691734406608887073528780032447351283666477222516626606288118909193109293325328023822739514300767308325379541183219397062849472103468154184695120274129922650413726363136293054169457195405115778638355110926179838318932606496582338008730165959583688157272712590005060862719031132265507540609660626513484244473755512168370347520000,
    122746856109657256877247301182596623230032726621895075619329385090054366340120165583494179874334062271287096056130639026533853258876691958731465695174114708373019410762923951619219685688241567134897857592411226116703907862216666052877781370818922916434464420599896996990139816909106064467142775347426590101954182552473895730702429847152692664649152352937804702545824585967154487860542553102101968648181896212391639517546902088160830728906024106985484789443300130169887995764711624936304927692021930890929004580185600000,
    36702163381107577042282228622389864531571134391595376126359816353711763484555533546637531672516790859121458325132853398817932630758254196075431826962478989155642067306168016690804299258611116041954180896838119007674180744021820020852264479355586887590375380551460414188356402649550837559070093524504534844208464573238534720166830364413541892253584653025842260359297728475431694661715667060601045285836869312610453526704008770510074119722393833601345327723360214599919259644285689164166957337566306940236071853757072000,
    8146899415035686865819938339566960611210499084363159077755160998877359392949540540919230882838906725208018091482128682322914348338371734335720503059064304362899434667325046252538664018263597069603038889885393546579403036629765040232538922835096573259856212839283573433875014215872349980944010783309772227192181711525637852110717773069518179119495872383445053604541230105833354308949267983649601596570451610880398684116580707015913877996165417220834857122975691015773455140749553945092241371136394142824883465693480000,
    1303641813917650938987837019319991433745362705909656823422435525341977474931785628210509813658323018118595571924528219854751224321887783676943615994857564108729231737215366446103044758212909186104497871109416950771766795335485700321006095346012530070264863995262768800335472342126786405327410119510499068335172808237251622614030347929693998329179279208984779349672244596913392291621771652786539759667305075858775640476719181169465180218063035101458437947140080239126074774123721912076331159288993176711789798592049600,
    145461035398828929989730187988979622109266260472183557203697703078044969226245717071094364658361504367755600671714515910210804506579064703184502988214003321542279668861660526534653919092374423232728756669791968821426385903163177544157325342789539516846926440712589163313926516142768304846990588366143299209546945660849118593634132836149356319271855628354019712011710169505489604266279581792036290025922143875862208917284935880419152125476175121372658321165601142414347882966976346690466442737343867252903585634248800,
    10699016448865230463471788624066249434202906745487641261393331383470056750884144928584267350044042680101070003969120983895850699538170723236666751541650611709563591229585038474904199533632195676358666089791679257686561145570323100220611598953737346700190149003768941821963017450643895653310739299233930185822404415476762583063066075507277786508912757015621918160195208956809196436335052468884095188109226254484199503182609598049682692417786158032356247229058026351477768536304158707657016612397858821384004457575600,
    313721509825617408643195732892266585852815912541623339621498330329498260257362459210157594965817170520135655400702837898397825098043600327583079532164363262144270483404457992107586507938357418179012829214148289715527097689316235664947772688822263370199689977138316655918055865996796636481825038805159743437590275248028211348421996193055249026791930932713972260767076897666802905201918813356372464684900639241089279763873890060362391888591833741437536148142781154953452668745077218561550816497769426286719477900000],
    [8083507849430222055912364311948392552688373594214122803375829736723270517986707630171004595897954756518042118270631828103615195511343710133084351761409950947163204260370542255592402535347824713517719190028251791550234613033637092729506659853324018117547908868433536726693235607783343187432317170088330851292702112897269986807258279701586903504621637291894162703374214280311072627067665398781328769202380089660463855278969849875411087658811189721036608479733993368322110771660840862689404465840638695135009782272000000,
    4020638300410854904057630104134622891968764015538189069722657939831417835540813479991143122879571214111341539113611194780859843373601715841280913850376048533649868492674573201034203409213198519707578055164094405399747185231060316548718659278583744114778300318847209220114397162441209986194643977050611847813804497720516865009653700973602119356078233426277512247585738818803378375122106887829506774376056596881212130516340946817302903253861573983312853034362108184964408857613598685043093053916299924879204586735520000,
    1042616721695998389886884500350374160744717981432374972927088437116308126806025722972308766403325143469952655358071206418228172028871709459241651590782747312472347400080424975385843673647932551253133621545226033175496059054360323452669457868823482100984271863197969408964087662314896202288982540299447101214061988069286391664359529653554546944939443509950152938607163988726669163422127954447695817112984457677972280465463232270452285587453905769985180619095359064425706416232964217576114088411981673204547790323840000,
    161433295802336638041409522222160955273463028373954083989835964631604363575850964031446757113256597024141332121812579530657104353620143611873696196637972254700357312651556605551131942165942722992796855081000406655250683418497696263057487755409650533586901376407518140783726955446202860290582142521187873729501349784759625328467185652754877420245517436880445425961734365554466830122714418709249473289697838577837354103737821399957911283180171688439601464171869481378216812700413949333455884880162855714573253157920000,
    15588561373571197290250852076029951279311239184470099867179471935594858683018171487331729517925375398824065196336208907826799380095506928635738468567312737421758567019762997502298303631980187028920324368467359140982441462980940346349981366571431977537995760189056217107604304297560077352567504404690698619536819627416313862555193860449685890978564812233496547538887192590443551555747752069830023003188328519423740668214349264060673089603682023848605941305841202628114436014666647543639023745120856795284888195948000,
    854585775395927002112013098127757360076336292716386142301061684070939257692763086962820867300571436131387628340987221789444921283479115789565781799661571594967033804940241871987991590725150613055458898831620624414197746116453862441644895638871050996362955415167561263858646850554447374259122851929475690390083353382733176053536467128223236528194321446307349955073300537978481743249995049156267634330764992229448781170183396234963626279451556556215385096757478598575716099746684901785953857285870218637580251202000,
    15849921464949410106285460075578948333202683353410426011253290634738408899411833190289122117617396847817805301308447938065531401840002546747275629589854363042105191182152018604916012276303196409279272707094491002825071976605029387522050724571884441397952061588099617046444256815371812311942508209725130769650903638631020854605521970914543340062366794464884995582457169298274094178068495185264420578155888273210287965910290810146652090525987148311451704063639163730622521778361010763772802348706714012158124250000],
    [143241220120433279194463109966828777258637349289475277995080799536216260501540002947809958301859684993682824850141598652437407787474564967144177206793855643240309982751513064657306084913826427378081763517916736931005075415356692905256739881719001609472333818158091844753864653905497815584270552159555953248318988207791343314281951501665550169319198267546260435773871345426322580279598884972598594668905380348505467440934630294656191756949493947304952346399372098518035121460239900320729299440474944755910998080000000,
    50862083410556724408543513321910381750676633934288860836807655667735595251982461468627167903662933939899896463384854295242719962907112584746850750790299739689745836514312716696164541961208587350927199032738458500846103354452589193652466289535045195103084303775537902027539744860949695604036093609321842056699841484950188436014877919285883475564306611640358338377845340413692274080787034602132122704151333866680417853850452785324442403018144330780074904632766569857868365933891614278779874050369085040993487530800000,
    8123248335932031058232689965883052089919994719793449770473396262253872612220024228923398984204602068520473321623715856769708293444177030963723454043089172992429356320776142915521229964930306659107203208158905652478644382226612037154652977798803362496035000563888057081084774156740862522027021365749086929395841864898884922391867845236169479122100571233662659331504647058327346584209157929114953000034168117878947065269044854418734903490202926631148044799753827359187585041831785901721995850449438147291100138040000,
    689137571814907780173808961877308701975402033512442872880621899543934986535224359480433545579684933834954909106013094577132473681022345128040452314664189722326783994486682276484065585866217740153833948418378788261211513791621137119848811384399464533231935826517325452956245633113490447924788452365028983154580070529026816577979009572995562797453608080131750792230129758027536755671070913340125857856266697188697525172317855147194712872036447147277137676877034972330220052301773168300088370824374683603956490320000,
    27282893026561395144155571415148317812357735951224389936979177486280550914048093959922509287737004990494772016286886617383144498948240848734968841667349452160232284429833408049796837081097960888979915133851648434193218744846160568990638098202594359284743141149359647816861577318138811667551695068712444065851105540586610601991883549425808140889054936184904465093484321246834833306648106808730713682247234086145803743844771887382573043863887124712687600656688857413814656579131961223731549613079139528932081240000,
    301431220505164934186548787727361828063938388088551938004743167231342576758721287400872203526947789304720072875733988465198781994678239802324731434638780851365787279072539848065860506968170254261338686596777223430895286259858776498789104824634831754501323254507871519186481509692261245942611310706506904250248351867764902689085737215544893075050724119521392950080317191458732375338916918348771302179797906503748073047096153869132369082794820391255740005053162453628003618641654941225070034829093636893910000000],
    [594631081886016432656056407715132491382079446516592173476669427863842420908154110852652896833215780167429101242503890571656577918727504947574535588657297880460821302552111260425825715535474926428514289582194468919555100173843216903810181254450105915677448974116915972078504626896680186093800465909967742576705472559759749089513514979886158759348113626145972225595390307647941520079285908046509292430921024472125674396715942492193638138393427033108572722098200446275949434167385111736815090956192194878809600000000,
    131572544199829559436148906492390211048899345012568982256039630722461513810647120853394134241866415934962323309618998931613851376615951010197062324802729646680115764096980703630885112705827734373844238290807695040772175760259007593659674126141387888328345356249340809208462340471724532258060386819978243878938600662072425151283292938464577974472770525548489115995973282006552256937365678648548643517491912442521988840014867551680628891907528117675718197709073905134437083949182392948529137165178906155017984000000,
    9737475556274572143093512953006780340994640299231271434274293584865830096919666873515231729633649597133108718607190961284018254573535339085244080243873825307619708699558406083613560660596974645738342521056809768820778446154151026141185461932470401347205468901582964918569507368726964517127514270659873882199177902049160653372135834180589409456250918083072814530219701750269269956930476147407240755235307150575267332217220340792749393024753788815431337093332865765193266206957026660664729296896764430384435200000,
    263289207906765363791959047585751711475641551269268162021103486797318782466691196152314079805072724465377300040552826067421340708786776431575594579721980907870069796080892562739921526366359690576001501054047757342117376150920304557695004938732614909917443561646411750154472986500763431340785968407502860973667080790196688038361281893567515957555801183662159345216645264031441993370495666603405540019027979653776544487898286782137897945058084867198805212678961693562527417609062513005954631665454716598220800000,
    1783792569633334726896324586298398516574904213296591940635472541768785982464503092412586367105075460963980682455764013393082282756745054262859825087784663729660086027416748517697061524184525995917739688114397964055514182970343614941874989679098973811116304864786744566349862370530610993407003951388885625364239053848721947908247959572464068997332040877054176530487437269390688922742981362720256063196317705968572667882529512095592991446237148138631985818813550590742057584654302617986351471972285939200000000]]

def Mu5Nmb_nyD : List (List ℤ) :=
    [[2945924546631774165366716854129504681481051188817635936788473840257952212254577141739173406691215551679827193065214681090048561205709015276647430990553941774309484913476572489681580621657882306963903623129942958155767019597274781716619236522284826667478893736107585126354743502403879009699269467209434348768594481507366720294195735133909846717154829543976953448958068232834074517688689787294612448693582648265823821855210327324259040054791364130995252336055129736665666769070543215279792942683844661775411594240000000000,
    2945924546631774165360945711194340665500078510843756657280060528964775026117934306296697492363367746392880036658357928694595844166822695860209557398963961386495441973251579877696805212303217019252247099802333461158290331707232829176127133096329623602026210136665667441116991491593653346813692045591136996054977383174153309444260060922337398108726267512750511343840300060039854460738107569439704041249513079413044731721021271216380318122914182607011423387336221698109203540880191818892478986798262245884266791680000000000,
    1472962273315887082480467905071640252471002390612272746005947899445192294212895781521643643262485637313775920745163618056499448629015481098876286862913913652320206005804401060708872388450920796533557097292757455893599107218233511638490173627388639777770726270831829847980963439954428735848318113567412757498926867589510490849562883064001882790361974000893907900594668625564137721504755545179513753687965867762947580697782846490629436330958277282846300830049996578999011569883598215356836941906105525969060265772160000000,
    490987424438629027435378191930922381882165924246508172544376691276033148653673364671390678543054180516270996580303801981785219001426377355088642271420335910174342032171188853046498879265892906217599466919625330545965740481607693728481128028461896276314426513507340662023720072284567797143035608904428040386392397196625211656091306795883973233048211179658669680298178094429440976502298333061014733382409604389433267150979476009843989812090573254466818102673373362402979082590308419226493650021499341313961713812032000000,
    122746856109657256841317098406147166750782611331284609249459248256035925562407924244052801766972939224378300331015649858898514996026869605978713598320875770587757938649779574298309485825435517395059382080733725431090483306849914851116967444423613287117079774812264748454249897518611328694833429893790637433215748232930847568869838654413560017341302541462582471640183901341230870442533408430182513895952268118534979502915715348928537916040101733826917146432711147699171885591946389743051530797618613814199303155426000000,
    24549371221931451357491793459210827322310541624439357577999089716274147203218695243493889492460480345399949938129441280046986741584413005788067918358461867172577476496858353079466274512359082123292131411396144886082041424299675819442399643959943080807894647773672939769789912901468236957766987070363032774299261333870194723506447266553191628909220079815359818276617235664688031145688555020685429907262513237657625205555052606852886387911940790881703715427370039715064418198152985068203437740816589068096757755463400000,
    4112215667822083999835961625111456511405346051820720916659486051166913413123898653328655356733083577806435510239614178644244943405855702290170922156615941650307182283774487499602439422821191157660871813454294339899972930311590444473932128651405717954643981642157253337304671674994942453000562652687957506293042308160974378508234906805661653915464377057822926654395083439678993100755944028978856726143660793377492591010914885589028332121062563688381400522765839875544109969218362597364268591697009686959312580139200000,
    546071661469228612075966604651949638886172433016946341717040471566402163255606867719426878687077469650299188139120962745632964369856404691385426274666508817894865380329389338792003407586339828491587065232508148861937904606619622641099535610266320500725144770003741981974349631502456042969201264583240776156773962397655621623460572743693225789578071568948884594269309449805959074860591900796406270599955318656772329121622391483489707568197532766102585623759279455548337001283200917422231839693261791708101424193900000,
    74054893914711736337836756363371331906987364450356012660387790091380304867861797539817713544707927275469899889953591468012632003661613470157720433617610963253762446471136259729950529659198168239251602949711544137896251904769850983712538586781972135330404364951438039106278240332728378684871456770465707058072800159111917298247986604964046797616686367072645267473105005467836962767703269974136777275923232323779643444057712941260380884233345615759513691266578101975121803287016913056523571626545844361636214298800000,
    7605171876503854511277450494924264843739099732337800825912125868655772348687755018798618641241998222439288053745674113965403746075316863114014875725748331499900380826922555638289143204246794298498753642489446363240669319490611993893919853972134219632681636617322182678631722312196137053767625398783786607403774384767801983436901815674683702289518107813885648008729495825390728462998334803037676090083974858512428694700949655111998152317086016034987682138777788317609519227098255283439697883264564968572591907200000],
    [-9465968856062306416982866802356145517034292119372814421182843090185098998268044469732560348485663777634390697046767256646607587729615269260541637326304512812408253446320500252362220115585838153072780027511935939815510849698784467874704668492954170947827808922332150203973652854810094961771561262970094360262308491485274268458093130356044364029455448518738362641463412563244084628517497729788274231134469804790554766601600909140588072668382414650298002538242160622492387839086485908312276947200000000,
    73102264383695436468765327909542928888066125466651313743804570772362843443476705741031341303733483816012521638595173633387115367247225401666744098063463848963173851814253983631739747476952173328016402197202380957174109235740856881224036400867472553635389804655463278275575589004985847319800320899797102583396417382248375305280789023195172244241476100943254159283646701928661738129279468455414522129420515674468226932089870399876483990920865703310277744421065597156342214731437648023439728079008000000,
    28699773803960281395863440680921985205857016592930298028088191072639215253995855662826658210948000123591461540880654746663892151195361553998746074635902295490533119039246189015050500635582592373769087063987646272722320339305577472727595153303136243016587680985037822154944499294326321769221752104934230527502805631524366794482048907233758091201157066297514068901884384877726903395096122632162783599295640535290488125793799564635281194438475224575499666813135000374696904265347058995749062270331040000,
    2726512207002103414534570042976085182022574122332758739349070501343160812068830153185151018655440895786239907059503204339695703358506538701774629589314015666953819207879429541830291211900807000900275090428836799057856303217671418819415009661510897158450375477795265883346120652052861875854187096984836681396492985056930939902831181638846760609078776447564235300196664323922505158147454614546984662635439927818802944810623670865565208483840778554753976021338270557785302766880273448853645546016704000,
    24532975087391577882247146799433358301497734002679040420038682121812652109652109972537556672647102923056311863741243703519280428538571547373238558235786459170601518880450410141504725184702661976280938386162570614140356457284001308327082021879416645964280809172693279573643584691573600171335360466999341551817775789595559529846713418906647148090862352531105400584766720780224970079781762862336335937927327487527723508110516154411201818892325465171689486248497078885602463464907175281972222760512369191238848773824000,
    -15474265990505513642339293152662562912407499374386044527046494983301544745538204298377633892806520505883370265528323456038242017789968385702016077711688593985435524144083526252944791128797794268087805482779241381933253277283264642318811303028691119393151943598258765452301150853845355692787683107670492758134046766387757118651969514151179449466368945165174544326915510896323679040421173683955380565073500211749483917157214466332818137272118169236514070264628467676827067534908695591676850975353144400684237067304800,
    -10907234992321258143703749653252516443000119539732331438224941474379976907217762776595480494009265120687959952296033369905375782911126021366459674468689825575630012781128156973835981910912989140863428234524088727057370607195351947648973760724383164908894617394102047173436534996542370219671010062163496611303679293817460355525880370362109521889935259189448381012767750073323446934790493620595010271257505565561264593894627154232292506405979706098921104452246631470241735082509721146045926268454059395660546087156400,
    -20863804183440251011223796700858324750798098100042194154420861102035222288036083546110384197255884010481050926224432082908176943809188506905397715610242517407933194395897270250734664745827372320469885361708123060761397631019081849056980703837247685190084475676052746825300777078009608978368768530035628914889129099601667757653654652182367933476693610978549326332186138463740508340533459188771314505641589318850931685091510827065621109282668539347845147388553056755283067425578517995065826897712691621246337363133600,
    -5008920849027626131760352273262385516078164314771981023426069089849834047132331564500162559337593585548594679351911216462488760901317999901043318784255834121438906139364096649883579484968182454829752107483397788438803330720023758953931044096279470786595945371722889443417576557916341774988064133847024891284056412834110357392350040433058518332357984753801243240047805699063161362633456707115697019357210392179365344970296023956640923595788081264071078495834677270242981587031706195969433378115655841279521434800000],
    [-752733045748968807158791611776279489103108635619746590257724890051476143446903672833639435683277016688522266790939834919186314104187069600943446191103419674408043966497834271967509365864235675621984785652833688726949584324318539501514353725229962220325102351409787362144883732139035116274591149430104394265105557705470053300502232345159790393958271185192072503024147074675062988307309838001350822208821418483603596565950612287048892339232171634893604821888087974269656454103923977681513370808320000,
    3691562475268445953623289166835638771077337998575580967836391577074451367670939495029347489466450057554981787041245637789765523626079763172587198507624296761452268969694983493116599932544315589429377941924677077826581513659894137794246297647095200197805943741669557851165148240465710056466147309282728701430566911834622527075501012756527050241858629037272383357797363843686488331454412530316362529618327637698953040292796938547694088416031357740398458002175071139778247236410596820955870879356155200,
    -121893451789600015744054378936721225698235311906055849368546088611337783176716718768634598398670954754871822332889090545102657232973837343016632693139645203999852815976919117586469958048563784698762167723940093200878220252539391370883169619205552991377516848931915754758592651943680628660094788959086248750285101515932690773839066416902410412256707883045069929179093056195873320583750380618967058594730397586627596379356605996708337798814643401188539216898159260040342776957329921287495812282731025305862851648504520,
    -40103503195346389400409555751159746332480195761645058743540596935829632964389793346353050045543350291293084218360666048697865824371272636829509266830670730673688021806603066815706604223513014378002196096039406070513928762501523679806628985187470065250152755653617390533075045634421415453975073037992330844288059463324751246681560634985628546805239336883777467845795115450496723907532404891836934313162691705051926113327633316121591226968728352746093203283796730645622261380189780987422397613734690797676685669433360,
    -190920092533656934948822757433270960682188296268754476453807679305713737489577554515605628102787348990552626106118650213001357155499949515584252159601363542378272210313471137151914997150265282828621398326878858516629697750372246978802261807082762787720873445769389374694476522499561460926441174926972474146276345844925902103102357819117662820870228914430816264795072116034007550499150103372717411697290537174777326362056703499107121482520489652137439911897319017208209629641580575562180286752584981581874192320498720,
    -42612666428752381531783135674919171248666042357357205064659177278492173414817595509834596625731496451229531572152050238689907471895931671590066497395436638702449959192195241590879032612828683214523108513922984305387854813457954866773137432085154286510357536396637509353635148271086168475517854511180030321395934318825584349695396517803128208994377931259012339393284959171523065099610397013904483872111595509951468953986306968559090126487395257213204896885527750874250204757867172517907629137422310977221712150956239,
    2140545551453467821786803251030028044324864090412440344518854563226276610491455482031643758765701918179423044853606389311331667019945860238570205146855225917363802240972834359643537931366679022632041919527867011382472742235133329947877197861778839231472014860813172097991175531504888743991759107232751881473105130733672539518734109453452256645239851075949541968840759676704364862875612244202996477999811129445681310110709742940881780548268205431243269618130885638986492615374892688105534849426896599592141428276218,
    1520056420601316285249267086850598621269208955067677800134625671115041471745981558499356167974986013894172491884679943870864750426870225496419700328162340353375810054178503253279836191940580041491513673037560295387355854641434638085783582698715851666649490434001969484177830361063126349592759528160545779583208388086766299063652801792354632805438246671555711293933770793877048102743735696348094160952049640032360418553135717708945119776459015141109411828950863192938361112612220272693691939409530857434364799924320],
    [-99615891213595070036867256208203033487959380016134664720833553210937297473556703367512936134225847859255562921063970763014947827156729650425413245927358218351855469645861616439365644541276898546573684705431817342631495443255422058516001055292352400404592548946696675177760049348592409823460615785105221400257128588810439678619099552516803707967579081115860490392834587142624837460347035226900015631453664537234182715762062573769440119306627015538292995587381636714420869018620164745957899634405410054745554469120000,
    34195261965587053134204441181561242539804886342197632438676045360734815773702045770740656887310949803572163774919959287383866863428770051979116142515534770694948138988587028588095726951640785688231037888923668161073312815542668081279145672940980673393136759553581568535422861653345863641820544830959455219135084822548750905489432892734035266409926340343441279451001549109144777006243052509056754899501497866955347491480897498881083662548184066753844030346253996103213370750978437383890224493472548140682364573116800,
    -16510054081138304467011888188053312718625630445374266010666068940184988276385998337306609419070338790880433116886987223174131663611952371336143560679574304938937139279986481365554553084480618725458001769528200070513440901100782903351204136467476084491553437838328945616713451908709369567119769528910904609533532758339776659979884890370151638001428178921641415115442270142801474607347815012010016219232725792138554536460844686940520138858583983924802034979011608937201430317727084795766686439117724939198419949862140,
    61775882008382878352180791426246089272239659469960509941310468047802552294947617790772419845407473508462946382711604908285106263278838307744761377482972215780679942093360719646632424281971436079201769073059309464777546723484136626375604468879423726468843174030692526607132632258216722240773701317664929873818043138979043138894268911153161901465776186631363686493812915233707393072658397129466997629003325791565558163412592063125133447128963109772861736294385275260344179730665252903527157444590197788204388005957180,
    10623647698543215623618091593058007401506206287388593579647712607983978885448567622134033064424559363624404169303729928654015058949346951818527206987972818891506731129278961589566682537936458053228521480800008970764234199174477702274120414626066198810179639538002276351399751626705355785421967016432526023294897110647455318956782818115508369956705462493297632407500298200107453721070903178423197050152644434111850692356566982171419278168453633509836763571499541320607264013307317280973531163810396702736379053663605,
    -600288975979809645217829546533490929108428284549486497377974846441631345519526230963234519486155827880336343772585989300072342726653734395915233247121493164942559676217641781362343707103257261287349973993720290148482019610890004766532928780159453327423407271363668694808095001121866790980697016352348460721124000779835417618224529910322773447787093351799492948832762136780720895398890010580943284974212943274135717611602434682321418437730070502548157005736892787920841183646762098881375515581653144523750746472804,
    -267274720706529560329270965081602470153811438151305313442960979827037742604994866024196091696358357092927708970055983829151973143421389055133392559868232402230036833032304934326459654930480812108938853126789976090031210528740555982492354205205532655538386757847733200647844437704116799148425111916421003338601308809802715012778203132102167023371724151488978715129158962232582848796511920102315470022571713154744651510026650513932673173715385753834908717312631579244289553594552320220275235249976141393138363083746],
    [-47124284757484698162187634238439521140662828096555314590174492763165215392570642871577355851802668509079847782574036351307942887063544091865101351240272098039768757153660498133835812668729080248274276989800661683420048525743810089803647402040817329311382495282313868519939344371717738594129405010794401627742355714157587669248091289154661095710397938774457244809356074923631168050168641068883930924367522287301471383253202577446329179630556633237711289609525086113472904477276590054613572985845859786408996977280000,
    927838585281210878716067204919365053180952085607176119300720622099804614689871926498710629661744538416193262362782178500386869843523614118959123764500040129698839207926905178147141493905897166008497954058445474166126794990741717822141206504814222240818359293810730558937519308707508283763754870850591835505236366124365143654771851523623909845860996010601709976018680315177423736282986918371218505478977984721510456756306485770848485357692879738374015059700937486955342240603601653097737730618316134461897620836000,
    1246882253513823676406290207384332773352107956155681773056180243901235898813345384361893234260153646202134201319119075671357756445875810304508467564206325190260083215589498513698547309975458685268394487002991119340218753616703610769818243662856873554129029986450585487539277466516034788903875061820847621522899370342788730402664362474791085864427126198448065249482915311149063293178414309331789073700121963455035332738302936718056168103443676916382438002045851383605210810402849252731762569959684460359486769782000,
    2179238662292611907039318834806652237487923171713909280812801845650374838225713361003818774707985692554203318606275730007397407181260019476475002236601000274736420296364177864734758576678965019404993774593507799505509638842022638481410028866833160809062881719242081827409113365228612334418313702617761632920098570499650296446851584272870874792943347043899518477808298327383871053553553787081650602415989477963066733107216830888249490187018736323093396101233796595881918279983125186176796807140498707671008150995500,
    517144758281153451344876119004176442288518484373204055751204514887019746371682731342133865849288479102670535451778232022921650052345354464536832016446092800434334531373419377830304946551127884970427381295041415062413758197889809673359327087800310775244079103517455971852865659487481800826500285313162734479876697681351849039776450467947435708521433237475331581991135113054443604808983493173712470719763095805574006626129990062240222929328895946888502839440021802242224369897601815865126429061283085225793669722790,
    39704850236436597733320161857690529134038485647130482889760616744979424825611990151795846347898869530435502065773772876491127960393923908024620210378436855124998176013328247808238675739603547214646536499370373748246073571072893093043496821093138765693654898675550160288839801685599858353198919705494313989768505319085317077942489566053693795986808620732343319888692559167981903640689113340186954528248887998708818943476672622171305786687466648823117828681325029078530247775391634353696160037054478749954630564040],
    [-2110143036272951465473659547466492996340022388154884273012646400988779057453003162205376498771899698843055295547656084237895571165426530028148822974562378123643695288219758568055346079448360782653498915286656073918844380927724185423514187882235602072263547201664837630637589191520673945927254967992558101658741478722693267217887820129082044017100443015084477413388569442442485258713691267195613260570576456604490161862989720011445969964716505751285792749421995561774547793859590272906843861484452614049488512000000,
    -337633430682248064549181064076268527059518003434279517077533427233453746396547114478361675950348205163007492304609675793281009299596933009682423250618744041195839696991599166381774385683712457383482755384227056161928101722408745269841124274656141408576726676780058025730522949766497731110328935321413450675650908553751594954783929202071040873468886156809179947020113766168998666301867440324929998573096098434090088951018290707894025752800519500660141355516784077587243347052060187919344558938344895849165290880000,
    78643971343616544885312091991845659679512866397133307491086013516847376835071710702466342606867458671704728026217332609084062905369889533257418814039901324186528944248564796476124618360567663666853143384592662372129828571967252323505880827727507608566393575978349532955139698843519104894644123703265948634280964419869023115345301717586533014161886600779407369029319758410463100663535764049002667368657555386595924666462277717417429905631769334750563019986110039041373645581781577810082278800782699450287840896000,
    47819473347289571289094129802762508701306934002888223417466614842405500899730669319900233277402492288992885512786135608610066829046260284557042292577859660019900327598856663248938358720011342814694971538567953547472000086805402320081006890529368870100070738922498326069112996722509775554794466420847152808583385819583756326627836751938827381719976867493060380442832974935200099686392528062685995912881345152112750942751250357832605030129046782172025758155235503173864236171768055966756614873156314352951975392000,
    6925590777149116864749037144555015267353663886759676106734377063805123203057753946810898130515016344377835864013256391780990886442948931036694936827770639515451890563274189871611849392222363359394007466709733161492720863856500615214076282212139911074238045190828273809428120564250932228000964531925837269046713643021048827587460588852665879931963984571128204981570522992312754278038183578625753930062733289751067120149262318972596926329114314433909490589916263308798260353357411060733289342454211830706227475200]]

theorem Mu5Nmb_nyTr : eqQ (nyTr Mu5Nmb varA varB) Mu5Nmb_nyN Mu5Nmb_nyT = true := by decide +kernel

theorem Mu5Nmb_nyDet : eqQ (nyDet Mu5Nmb varA varB) Mu5Nmb_nyN Mu5Nmb_nyD = true := by decide +kernel

def Mu5Nmb_nyR1_p : List (List ℤ) :=
    [[2945924546631774165360945711194340665500078510843756657280060528964775026117934306296697492363367746392880036658357928694595844166822695860209557398963961386495441973251579877696805212303217019252247099802333461158290331707232829176127133096329623602026210136665667441116991491593653346813692045591136996054977383174153309444260060922337398108726267512750511343840300060039854460738107569439704041249513079413044731721021271216380318122914182607011423387336221698109203540880191818892478986798262245884266791680000000000,
    2945924546631774165360945711194340665500078510843756657280060528964775026117934306296697492363367746392880036658357928694595844166822695860209557398963961386495441973251579877696805212303217019252247099802333461158290331707232829176127133096329623602026210136665667441116991491593653346813692045591136996054977383174153309444260060922337398108726267512750511343840300060039854460738107569439704041249513079413044731721021271216380318122914182607011423387336221698109203540880191818892478986798262245884266791680000000000],
    [-1472962273315887082480467905071640252471002390612272746005947899445192294212895781521643643262485637313775920745163618056499448629015481098876286862913913652320206005804401060708872388450920796533557097292757455893599107218233511638490173627388639777770726270831829847980963439954428735848318113567412757498926867589510490849562883064001882790361974000893907900594668625564137721504755545179513753687965867762947580697782846490629436330958277282846300830049996578999011569883598215356836941906105525969060265772160000000,
    -2945924546631774164970401778999342811358987648026901637528930091009757402846974406133472385523239319097284401838812899890633287955077729454399181313557442573900953648935106634230153030348162093319476414701100749940270994463978959216795858104476064023416157210156613866909754688831189621900609879989635609959625296441991076059388074619489039849182041132143860165218792699647013805650974502922271592004449233255683435626700162786049427428518155474833189732768375572648321142305438591336166271651297537846432808491520000000,
    -1472962273315887082480467905071640252471002390612272746005947899445192294212895781521643643262485637313775920745163618056499448629015481098876286862913913652320206005804401060708872388450920796533557097292757455893599107218233511638490173627388639777770726270831829847980963439954428735848318113567412757498926867589510490849562883064001882790361974000893907900594668625564137721504755545179513753687965867762947580697782846490629436330958277282846300830049996578999011569883598215356836941906105525969060265772160000000],
    [490987424438629027435378191930922381882165924246508172544376691276033148653673364671390678543054180516270996580303801981785219001426377355088642271420335910174342032171188853046498879265892906217599466919625330545965740481607693728481128028461896276314426513507340662023720072284567797143035608904428040386392397196625211656091306795883973233048211179658669680298178094429440976502298333061014733382409604389433267150979476009843989812090573254466818102673373362402979082590308419226493650021499341313961713812032000000,
    1472962273315887082233032311409071709177732444829981588745063948361448132217215523241809192185685835807781648437177922129343135365683958431878811447013782328856281998450102710176322785983424735021058653281923818309880819247620700228269274849644831947719243139654549432435770412198240113153531237708298273839376870690078532384877503005403544393863844515780836796653058182345068770223248297254382462017949344712885279323517912355063742504181849363523970317099254383898659503349859660523138735333060375918445413357088000000,
    1472962273315887082233032311409071709177732444829981588745063948361448132217215523241809192185685835807781648437177922129343135365683958431878811447013782328856281998450102710176322785983424735021058653281923818309880819247620700228269274849644831947719243139654549432435770412198240113153531237708298273839376870690078532384877503005403544393863844515780836796653058182345068770223248297254382462017949344712885279323517912355063742504181849363523970317099254383898659503349859660523138735333060375918445413357088000000,
    490987424438629027435378191930922381882165924246508172544376691276033148653673364671390678543054180516270996580303801981785219001426377355088642271420335910174342032171188853046498879265892906217599466919625330545965740481607693728481128028461896276314426513507340662023720072284567797143035608904428040386392397196625211656091306795883973233048211179658669680298178094429440976502298333061014733382409604389433267150979476009843989812090573254466818102673373362402979082590308419226493650021499341313961713812032000000],
    [-122746856109657256841317098406147166750782611331284609249459248256035925562407924244052801766972939224378300331015649858898514996026869605978713598320875770587757938649779574298309485825435517395059382080733725431090483306849914851116967444423613287117079774812264748454249897518611328694833429893790637433215748232930847568869838654413560017341302541462582471640183901341230870442533408430182513895952268118534979502915715348928537916040101733826917146432711147699171885591946389743051530797618613814199303155426000000,
    -490987424438629027336568619820628385607267004644216451791979976431213404221543505903571991813895901234686543113114599312002598443226823677250962242088141528352285679963216001702704824262495880565187027687352309350592846163412013131745549438388875675740723945945922750800411909089407492624389220280836227963641240826789159747976548986129873274883161258616571795359578539067409412868249248843003152188712949841977134412367220860423663538366607370672387391292369366221187875554650558597509218925127396261048150351372960000,
    -736481136657943540989750309783213468905809995014087405595938347714735210728013438428986903950399020347782846128514621889519644627608968307625310973430344445928112036435769435134382632907622892068287781847372932163382740927471362872530214403606206237745773988542086042471998920790182540496966697041952145944576394038286519963948315105727156461783215201962818857044831004267165012348407533750966213597214053608882958996694189604506647648087060661403891597380084265409138375103520249734645719800913640916016181021085600000,
    -490987424438629027336568619820628385607267004644216451791979976431213404221543505903571991813895901234686543113114599312002598443226823677250962242088141528352285679963216001702704824262495880565187027687352309350592846163412013131745549438388875675740723945945922750800411909089407492624389220280836227963641240826789159747976548986129873274883161258616571795359578539067409412868249248843003152188712949841977134412367220860423663538366607370672387391292369366221187875554650558597509218925127396261048150351372960000,
    -122746856109657256841317098406147166750782611331284609249459248256035925562407924244052801766972939224378300331015649858898514996026869605978713598320875770587757938649779574298309485825435517395059382080733725431090483306849914851116967444423613287117079774812264748454249897518611328694833429893790637433215748232930847568869838654413560017341302541462582471640183901341230870442533408430182513895952268118534979502915715348928537916040101733826917146432711147699171885591946389743051530797618613814199303155426000000],
    [24549371221931451357491793459210827322310541624439357577999089716274147203218695243493889492460480345399949938129441280046986741584413005788067918358461867172577476496858353079466274512359082123292131411396144886082041424299675819442399643959943080807894647773672939769789912901468236957766987070363032774299261333870194723506447266553191628909220079815359818276617235664688031145688555020685429907262513237657625205555052606852886387911940790881703715427370039715064418198152985068203437740816589068096757755463400000,
    122746856109657256784732455089052033197018138079220702707972874459037977276744405716126286650233571573814598671991765504448693800862561824600643888433802797161112752894977749730377553353915981074630365845079917429509932031069542298154141916582043985220058229206853801690499189029545918905488814699762301995642119572366136936135743347709027204643269217437952330774007401875875920428246110779504644378165111573741141365139823106445628994749080283542953368653009420020568114969426654783231885937202671891630143231300296000,
    245493712219314513570429960446370408933124995282300959005000512794318776781976132507983863856069252489473393814794540170666129481706866082651357597135178818793038074708265780555253556469647516100547040410803343447548966913634924875077009043606310689414947746399291906420353946322966129778796656987937452171896199357030165892305560622195745996459208265993584951180794656341459988914092921078773271929637181063251660597262533922771408084980333834768035617238209419226780711919690110148456716343935667155362511795940043200,
    245493712219314513570429960446370408933124995282300959005000512794318776781976132507983863856069252489473393814794540170666129481706866082651357597135178818793038074708265780555253556469647516100547040410803343447548966913634924875077009043606310689414947746399291906420353946322966129778796656987937452171896199357030165892305560622195745996459208265993584951180794656341459988914092921078773271929637181063251660597262533922771408084980333834768035617238209419226780711919690110148456716343935667155362511795940043200,
    122746856109657256784732455089052033197018138079220702707972874459037977276744405716126286650233571573814598671991765504448693800862561824600643888433802797161112752894977749730377553353915981074630365845079917429509932031069542298154141916582043985220058229206853801690499189029545918905488814699762301995642119572366136936135743347709027204643269217437952330774007401875875920428246110779504644378165111573741141365139823106445628994749080283542953368653009420020568114969426654783231885937202671891630143231300296000,
    24549371221931451357491793459210827322310541624439357577999089716274147203218695243493889492460480345399949938129441280046986741584413005788067918358461867172577476496858353079466274512359082123292131411396144886082041424299675819442399643959943080807894647773672939769789912901468236957766987070363032774299261333870194723506447266553191628909220079815359818276617235664688031145688555020685429907262513237657625205555052606852886387911940790881703715427370039715064418198152985068203437740816589068096757755463400000],
    [-4112215667822083999835961625111456511405346051820720916659486051166913413123898653328655356733083577806435510239614178644244943405855702290170922156615941650307182283774487499602439422821191157660871813454294339899972930311590444473932128651405717954643981642157253337304671674994942453000562652687957506293042308160974378508234906805661653915464377057822926654395083439678993100755944028978856726143660793377492591010914885589028332121062563688381400522765839875544109969218362597364268591697009686959312580139200000,
    -24648761031845112421133522603869305710130578576921646459536877624879667826633739809999394583725854363915556749573943828161950380006595642193652294381459863442672492183766474587473131811742444283988949942339603468785697225412258665535265689886554891081899609043770826744254386465278081117832040555660745696206436073176250711519562727415063276344695399994406454525785733917293733634455882411010804020924037432777427822557378797379758790907483056665116713650346542174379057351845268408903639327421545752564636632061376000,
    -61463209665192093670266381410537393012175964529394041738843589950405112805243154641271045525906994300649435583806358614304494372140707410820054245423156333713925475365118591735884102483530492932309191280545824722842154308592181270504790432064362549744425084546736111186516908134214161765663003559492278979438078417740300748730297681992395809727345498574174408284408091655868123310436283002614538489808472193125650374751924613221071836741554510063845710679595450557578896907458480338048644172130364802318870455344199480,
    -81952944493551725567974508119767290660389423388602367056653230306595654080940183672568125533962672876939884251865121900336592818907091671483571159642552182061472186399899070912466185833759756510508799988026463005255491522426281520945429742713719105634743506839191772234312146737210638611486511928824086800449626434038859271116558822318505178304196530356297621316427716943649390390933036276392082405687644771988664469126683465434452196029574661189759088099616878154202319918681769217764504772446062883481838361313166960,
    -61463209665192093670266381410537393012175964529394041738843589950405112805243154641271045525906994300649435583806358614304494372140707410820054245423156333713925475365118591735884102483530492932309191280545824722842154308592181270504790432064362549744425084546736111186516908134214161765663003559492278979438078417740300748730297681992395809727345498574174408284408091655868123310436283002614538489808472193125650374751924613221071836741554510063845710679595450557578896907458480338048644172130364802318870455344199480,
    -24648761031845112421133522603869305710130578576921646459536877624879667826633739809999394583725854363915556749573943828161950380006595642193652294381459863442672492183766474587473131811742444283988949942339603468785697225412258665535265689886554891081899609043770826744254386465278081117832040555660745696206436073176250711519562727415063276344695399994406454525785733917293733634455882411010804020924037432777427822557378797379758790907483056665116713650346542174379057351845268408903639327421545752564636632061376000,
    -4112215667822083999835961625111456511405346051820720916659486051166913413123898653328655356733083577806435510239614178644244943405855702290170922156615941650307182283774487499602439422821191157660871813454294339899972930311590444473932128651405717954643981642157253337304671674994942453000562652687957506293042308160974378508234906805661653915464377057822926654395083439678993100755944028978856726143660793377492591010914885589028332121062563688381400522765839875544109969218362597364268591697009686959312580139200000],
    [546071661469228612075966604651949638886172433016946341717040471566402163255606867719426878687077469650299188139120962745632964369856404691385426274666508817894865380329389338792003407586339828491587065232508148861937904606619622641099535610266320500725144770003741981974349631502456042969201264583240776156773962397655621623460572743693225789578071568948884594269309449805959074860591900796406270599955318656772329121622391483489707568197532766102585623759279455548337001283200917422231839693261791708101424193900000,
    3837975896275105798174105525716310035115614530493010436546329795948116687534786278334365784702348808057977687239375062675468992606784801225400000000377250319249493186449808897796968644233176593709197262110336283415498585523620623130015560574892934624469165333624452639272748571371037656477196535190355925855551783549977108482875978720003759976512869927807366704212081659538037203064564479258799274764760730809155787768513954850760771114654847531954613436579584656515186076517315117547299728828185686357394206424604800,
    11504772717610982032406585607703095484839178394466158339949541780875123519131045450253499571847116114894406718030821168889785596031563067810774522889724457415045662585830990679081088910733612355285765201200527926939848334362926874994877675345548716046943647132416258058189772970186382265363189898748416432238635384719382088439250314553328010281666108336868671733444280884956262243367003380252471651111266501145914405026528660168826358391540050581590775246984214174253590103241572962837830490821528657075874407738990640,
    19112745039776430337746790985909822508602864675709849596697583618488867446734750987353917285951835642141853871094514973224058708786331260093042436447437147603458631348561065891214351637187692111064187711788535737614544094901472199740972826761104737850167991359599123283490600612567804950846175327545195645316429888369301323362105626373083776223070550013867932559706598956711169461796087997529205718810181582122415232596892049138222088916180459380963513894023421432919985565369571285348725481683017533256679795878131120,
    19112745039776430337746790985909822508602864675709849596697583618488867446734750987353917285951835642141853871094514973224058708786331260093042436447437147603458631348561065891214351637187692111064187711788535737614544094901472199740972826761104737850167991359599123283490600612567804950846175327545195645316429888369301323362105626373083776223070550013867932559706598956711169461796087997529205718810181582122415232596892049138222088916180459380963513894023421432919985565369571285348725481683017533256679795878131120,
    11504772717610982032406585607703095484839178394466158339949541780875123519131045450253499571847116114894406718030821168889785596031563067810774522889724457415045662585830990679081088910733612355285765201200527926939848334362926874994877675345548716046943647132416258058189772970186382265363189898748416432238635384719382088439250314553328010281666108336868671733444280884956262243367003380252471651111266501145914405026528660168826358391540050581590775246984214174253590103241572962837830490821528657075874407738990640,
    3837975896275105798174105525716310035115614530493010436546329795948116687534786278334365784702348808057977687239375062675468992606784801225400000000377250319249493186449808897796968644233176593709197262110336283415498585523620623130015560574892934624469165333624452639272748571371037656477196535190355925855551783549977108482875978720003759976512869927807366704212081659538037203064564479258799274764760730809155787768513954850760771114654847531954613436579584656515186076517315117547299728828185686357394206424604800,
    546071661469228612075966604651949638886172433016946341717040471566402163255606867719426878687077469650299188139120962745632964369856404691385426274666508817894865380329389338792003407586339828491587065232508148861937904606619622641099535610266320500725144770003741981974349631502456042969201264583240776156773962397655621623460572743693225789578071568948884594269309449805959074860591900796406270599955318656772329121622391483489707568197532766102585623759279455548337001283200917422231839693261791708101424193900000],
    [-74054893914711736337836756363371331906987364450356012660387790091380304867861797539817713544707927275469899889953591468012632003661613470157720433617610963253762446471136259729950529659198168239251602949711544137896251904769850983712538586781972135330404364951438039106278240332728378684871456770465707058072800159111917298247986604964046797616686367072645267473105005467836962767703269974136777275923232323779643444057712941260380884233345615759513691266578101975121803287016913056523571626545844361636214298800000,
    -603346386310015148846397800560223171698899035142580432721327262205422415850112143095137188851672683324447159071924765114006431812204033782628223143409577531605729584550218234813440219184498335054876251832216441830227385845354159817349282454980160247552129537005606360023662457658369399698642664225889153075886080566712798741509773210074483902823426195770610520797607793816019149076416653413689228478643364155798412146356330684315339580272744632175030634584871447271216161378645025598234499280820814288750260477556400,
    -1948060347032199231372828918660641431371458625579607866666400092099214660253859353258863234113090205446732330526358111110784593644491983777030678028503882382180856367565113077129715724772761362715604053672188909706809579226355692251042661187158755990983816477235488003321933416796087363567985675019048303147584134373112544380996549342048304643736600918739941510528474537505368088605284417626682413656105001284420277634927021781577298314449065825722470070280347626916651272889951316896755276401423016917903084568839680,
    -3563512268055186671746135459602551803426166647686278040750525718950326764526602884153608262921703847065303721814254009128456731990329398958328374321890681461270995492126654832242663954062211745922013597163720568632045315674653729290778924178792611985744123352952832344391936845491388285509221799899553052446060147696165442282345909047317763849403977965108237049620550363305492891623987924381725050950634170708108250863885362714577751321933675449391625665101808722764809922061997730903054444542155973798237842708013260,
    -4242362542079097007601547536039084902552576557501233873699955705167143215117417110028551652379354126826017453157160106976023933421696126895671296655117259196844443768127586962259040024960772019795794107758272451551713692252020881656942366317623270884652681600260711455454835947670166147315885259661061989004836231747149971019974201331605131526037835811358064340023801153372982810604665139320306246070131080224112012479260714774664494227417460646931633786669983796175033110050072463041406618604169993828488611658579960,
    -3563512268055186671746135459602551803426166647686278040750525718950326764526602884153608262921703847065303721814254009128456731990329398958328374321890681461270995492126654832242663954062211745922013597163720568632045315674653729290778924178792611985744123352952832344391936845491388285509221799899553052446060147696165442282345909047317763849403977965108237049620550363305492891623987924381725050950634170708108250863885362714577751321933675449391625665101808722764809922061997730903054444542155973798237842708013260,
    -1948060347032199231372828918660641431371458625579607866666400092099214660253859353258863234113090205446732330526358111110784593644491983777030678028503882382180856367565113077129715724772761362715604053672188909706809579226355692251042661187158755990983816477235488003321933416796087363567985675019048303147584134373112544380996549342048304643736600918739941510528474537505368088605284417626682413656105001284420277634927021781577298314449065825722470070280347626916651272889951316896755276401423016917903084568839680,
    -603346386310015148846397800560223171698899035142580432721327262205422415850112143095137188851672683324447159071924765114006431812204033782628223143409577531605729584550218234813440219184498335054876251832216441830227385845354159817349282454980160247552129537005606360023662457658369399698642664225889153075886080566712798741509773210074483902823426195770610520797607793816019149076416653413689228478643364155798412146356330684315339580272744632175030634584871447271216161378645025598234499280820814288750260477556400,
    -74054893914711736337836756363371331906987364450356012660387790091380304867861797539817713544707927275469899889953591468012632003661613470157720433617610963253762446471136259729950529659198168239251602949711544137896251904769850983712538586781972135330404364951438039106278240332728378684871456770465707058072800159111917298247986604964046797616686367072645267473105005467836962767703269974136777275923232323779643444057712941260380884233345615759513691266578101975121803287016913056523571626545844361636214298800000],
    [7605171876503854511277450494924264843739099732337800825912125868655772348687755018798618641241998222439288053745674113965403746075316863114014875725748331499900380826922555638289143204246794298498753642489446363240669319490611993893919853972134219632681636617322182678631722312196137053767625398783786607403774384767801983436901815674683702289518107813885648008729495825390728462998334803037676090083974858512428694700949655111998152317086016034987682138777788317609519227098255283439697883264564968572591907200000,
    89310351071974941612720851155176708344449995691082401587629993919937173426225878715297951968433868012434643409935499108596810658487040274931531597141977500907036621838200270995336953584048521006958668144113140329927421506434589794102259389586455661884219205231952390932986277887774842462277397119089708381523098562511885608585770993254521254082356581303520158410751600892257064507518472416110399316397363045462789937400057723073604480136442683662734286637553151613768740469462815546023107847093776338399664527933600,
    377220150409468137952771659048362636381528234707098983749123381707362187154194169989688363839771627629952194846263242444421865993479794948852253038003200917149496111348297653142672775960847517774721220147653946196606024105337649856806842237772411416596772711559330294854212294514042028308698039555285689949363847230026961357608651411762060607765129226890716273246279859788726717952063870216851056910402624628452485850888456404932191121906381095481267691830344025846673959396719643651382282944090869240115958050178961,
    802135111326424264171909102490821121125274566360514811354850301669561125969493580707456631032636459140391661721877843212430986867561078480895507724317797302265299333721000421280688401472990687651945586922309847796488752297838215357044570884936280679116400609038290954961072619249029736443861698755021200753791044679023424632055248712334354648892421043989504902248948845980049147472352384220372979195965960469590672808457371491865304010005325277404827174094924380908548827493401206212251683914488228731957856069867225,
    1077958331132503214318133983067488121338861549878193295118435541715630509597591119938324880536572075894919115582517526328173058399859214469038804405163994884028269209054538799529604852358758869610461052209105222920928189831443759118592179713807580833101556335679799213594312348890245239823891804604059623554086854727732813660945541541425880275668311092325205327288161663128974171778665082180668581945389503842858770937177996102213052895943087875870767945406625917417127537979564413304145848733904005781400000110278070,
    1077958331132503214318133983067488121338861549878193295118435541715630509597591119938324880536572075894919115582517526328173058399859214469038804405163994884028269209054538799529604852358758869610461052209105222920928189831443759118592179713807580833101556335679799213594312348890245239823891804604059623554086854727732813660945541541425880275668311092325205327288161663128974171778665082180668581945389503842858770937177996102213052895943087875870767945406625917417127537979564413304145848733904005781400000110278070,
    802135111326424264171909102490821121125274566360514811354850301669561125969493580707456631032636459140391661721877843212430986867561078480895507724317797302265299333721000421280688401472990687651945586922309847796488752297838215357044570884936280679116400609038290954961072619249029736443861698755021200753791044679023424632055248712334354648892421043989504902248948845980049147472352384220372979195965960469590672808457371491865304010005325277404827174094924380908548827493401206212251683914488228731957856069867225,
    377220150409468137952771659048362636381528234707098983749123381707362187154194169989688363839771627629952194846263242444421865993479794948852253038003200917149496111348297653142672775960847517774721220147653946196606024105337649856806842237772411416596772711559330294854212294514042028308698039555285689949363847230026961357608651411762060607765129226890716273246279859788726717952063870216851056910402624628452485850888456404932191121906381095481267691830344025846673959396719643651382282944090869240115958050178961,
    89310351071974941612720851155176708344449995691082401587629993919937173426225878715297951968433868012434643409935499108596810658487040274931531597141977500907036621838200270995336953584048521006958668144113140329927421506434589794102259389586455661884219205231952390932986277887774842462277397119089708381523098562511885608585770993254521254082356581303520158410751600892257064507518472416110399316397363045462789937400057723073604480136442683662734286637553151613768740469462815546023107847093776338399664527933600,
    7605171876503854511277450494924264843739099732337800825912125868655772348687755018798618641241998222439288053745674113965403746075316863114014875725748331499900380826922555638289143204246794298498753642489446363240669319490611993893919853972134219632681636617322182678631722312196137053767625398783786607403774384767801983436901815674683702289518107813885648008729495825390728462998334803037676090083974858512428694700949655111998152317086016034987682138777788317609519227098255283439697883264564968572591907200000],
    [0,
    -5008920849027626131760352273262385516078164314771981023426069089849834047132331564500162559337593585548594679351911216462488760901317999901043318784255834121438906139364096649883579484968182454829752107483397788438803330720023758953931044096279470786595945371722889443417576557916341774988064133847024891284056412834110357392350040433058518332357984753801243240047805699063161362633456707115697019357210392179365344970296023956640923595788081264071078495834677270242981587031706195969433378115655841279521434800000,
    -42211912343674476875869621437129112172950178608588288531927407282024948987550107998032944233466450602568180479668896121011241754230489859446916755420901898888875051355885607558712173811112138661270058779395049318892899387995323401579325550632014605524239577834596287645331787994835622943896272178008951011745556433406555398657534432917920403304103729106359487889223205269209655763943265901128572632857494266880604069873077934594009169314572855543811897584808303800930345311628542255861001874352143329828312906676218,
    -142469409382951122996392591564468955314631579068701517143395349287169034097205449076060381149622272540812785121671422468163660248407232206842106949852321892012965454218752750765034770629372724817796789045902331173817095514396987528123212007240432018603338920035117660652239445183981546378194383374680682221497313233109669925141422970730843683220757217068834430126882819433887253609919558086034298359848113323584466827475980146259817265803221874471613052020656736080115176115829812334803812519989346450643069690393703,
    -271360042276690041887315699903296312732577445790018849934108017291950176153801474738309520680952685755117165240615323322624643136421483901067378568733470149185268936117455579943565337286948029282301055375791236559593359610767123252311633022476925030834863635563120870383192191175583082206423985100015415662347047007468235561328146996065818482328250188577370286594770236808821757659502560857162981127090493130737311533309258493717497485017784775133664823754752897819580512861572517424708929830598273754949292328070850,
    -334297391813044490735538414552854661145975784418422164871440658794901293051480607353769218909690440161490987134069427602257367333852273637570438934010151022003122949518668438742773668046886882124542644918887769906379564688218594919051145231426691896010600243183418053496371504048562307940202874506985877224281209068584714622121704655768755412175577874737272679647514203332604482160499315197478730022055903820312657023335110236201542899831411855634870974395561572102079948734538672572500215475175282199759516731106730,
    -271360042276690041887315699903296312732577445790018849934108017291950176153801474738309520680952685755117165240615323322624643136421483901067378568733470149185268936117455579943565337286948029282301055375791236559593359610767123252311633022476925030834863635563120870383192191175583082206423985100015415662347047007468235561328146996065818482328250188577370286594770236808821757659502560857162981127090493130737311533309258493717497485017784775133664823754752897819580512861572517424708929830598273754949292328070850,
    -142469409382951122996392591564468955314631579068701517143395349287169034097205449076060381149622272540812785121671422468163660248407232206842106949852321892012965454218752750765034770629372724817796789045902331173817095514396987528123212007240432018603338920035117660652239445183981546378194383374680682221497313233109669925141422970730843683220757217068834430126882819433887253609919558086034298359848113323584466827475980146259817265803221874471613052020656736080115176115829812334803812519989346450643069690393703,
    -42211912343674476875869621437129112172950178608588288531927407282024948987550107998032944233466450602568180479668896121011241754230489859446916755420901898888875051355885607558712173811112138661270058779395049318892899387995323401579325550632014605524239577834596287645331787994835622943896272178008951011745556433406555398657534432917920403304103729106359487889223205269209655763943265901128572632857494266880604069873077934594009169314572855543811897584808303800930345311628542255861001874352143329828312906676218,
    -5008920849027626131760352273262385516078164314771981023426069089849834047132331564500162559337593585548594679351911216462488760901317999901043318784255834121438906139364096649883579484968182454829752107483397788438803330720023758953931044096279470786595945371722889443417576557916341774988064133847024891284056412834110357392350040433058518332357984753801243240047805699063161362633456707115697019357210392179365344970296023956640923595788081264071078495834677270242981587031706195969433378115655841279521434800000],
    [0, 0,
    1520056420601316285249267086850598621269208955067677800134625671115041471745981558499356167974986013894172491884679943870864750426870225496419700328162340353375810054178503253279836191940580041491513673037560295387355854641434638085783582698715851666649490434001969484177830361063126349592759528160545779583208388086766299063652801792354632805438246671555711293933770793877048102743735696348094160952049640032360418553135717708945119776459015141109411828950863192938361112612220272693691939409530857434364799924320,
    11240683920189023641962699154487681277992890970023231098320354544246921647741397140458727695311057925139543786965345596396125595714745312870853135544257875638573230055467164554321197050687317551727945685256642357859973002100932471367018007671170414993969840309377455084052907528563751238130013713476168917803582717387199511063794142456805203085854820052689472006369157693920057614605039885017602411638560423500658647483552458644937256872943176490314039808392935138489368971932304007737219091448369146564304345943044,
    37101868374819302123363075391336677929683452650882575570529815171274402472488957244306470899613471123733507367047484497795918879778803426880864875363617613520341229815200955090423037142947432197163530778350875453382392684366600062115529909440663312445819217190101784469184025953163599630769748875750965307773094724220919664874683071463932030946081993905566920394581295682705485688166453463296344407280096635013314110781079076187704097681308406799131829537886387587191707563073561407151205112648912436411422681770240,
    66080213898404250221569781073602086275029883791439595338007585917627343227378304054599629074060374047925018101813094794296462923050372227772949273917318588882984049244508164439003753904673481580674942375416563694720732126807589041381825893131804965442731609738211922402262875693880424879918823692317285242059480210887877127705432043856323547920508494310952560156454607901824504376982178279562610288884931366197262113748443250008935872867222963434251313729867313497284048964896766279542708015509952474302465205945740,
    66080213898404250221569781073602086275029883791439595338007585917627343227378304054599629074060374047925018101813094794296462923050372227772949273917318588882984049244508164439003753904673481580674942375416563694720732126807589041381825893131804965442731609738211922402262875693880424879918823692317285242059480210887877127705432043856323547920508494310952560156454607901824504376982178279562610288884931366197262113748443250008935872867222963434251313729867313497284048964896766279542708015509952474302465205945740,
    37101868374819302123363075391336677929683452650882575570529815171274402472488957244306470899613471123733507367047484497795918879778803426880864875363617613520341229815200955090423037142947432197163530778350875453382392684366600062115529909440663312445819217190101784469184025953163599630769748875750965307773094724220919664874683071463932030946081993905566920394581295682705485688166453463296344407280096635013314110781079076187704097681308406799131829537886387587191707563073561407151205112648912436411422681770240,
    11240683920189023641962699154487681277992890970023231098320354544246921647741397140458727695311057925139543786965345596396125595714745312870853135544257875638573230055467164554321197050687317551727945685256642357859973002100932471367018007671170414993969840309377455084052907528563751238130013713476168917803582717387199511063794142456805203085854820052689472006369157693920057614605039885017602411638560423500658647483552458644937256872943176490314039808392935138489368971932304007737219091448369146564304345943044,
    1520056420601316285249267086850598621269208955067677800134625671115041471745981558499356167974986013894172491884679943870864750426870225496419700328162340353375810054178503253279836191940580041491513673037560295387355854641434638085783582698715851666649490434001969484177830361063126349592759528160545779583208388086766299063652801792354632805438246671555711293933770793877048102743735696348094160952049640032360418553135717708945119776459015141109411828950863192938361112612220272693691939409530857434364799924320],
    [0, 0, 0,
    -267274720706529560329270965081602470153811438151305313442960979827037742604994866024196091696358357092927708970055983829151973143421389055133392559868232402230036833032304934326459654930480812108938853126789976090031210528740555982492354205205532655538386757847733200647844437704116799148425111916421003338601308809802715012778203132102167023371724151488978715129158962232582848796511920102315470022571713154744651510026650513932673173715385753834908717312631579244289553594552320220275235249976141393138363083746,
    -2120793082520330813320501909493791263211387113281035936408970393849246202001651927487310416027438621660236789272114134997833488912873688795337187375655487213814555529567248983789062876134012757624060500055781271602601021370333145568313452319033506708474399650603855175739932285712182595717050956811688754511484550540168139116445669260560437848751778146409203872766088886449940697588055013787605290855193374734041915686289893145836261971621210469897955143315811277707961691464915737186777840561139933584623848225266,
    -5999055872378940665433256860248897161781732643365262617158146743436797747726582205029010496235661814132893048331735352919882134455332364151890797649767955911001361676729686729741989991801156057848939178697422639227993362150700326107316740601556725325485724205807472364173989504668160085637733696295700039364245458452579098235433547135735715170499708621456599685872605127296054050520077010180579265848970525156869874488457440240533559417414600760327079097463450858591867137926910488954551966193991762349962284251350,
    -8291075021130278824884051831673416737448313936471063988384274658829178576659850287131792343809163099131167936059354403502401237371760128823374005667961402198833685960389485360558773541195248224667635063536862687430847102618215473042991284975457502545099422626102700778163803313320188578138215702800864576382724433444427348263532162014554888690239309253072749056471350406157392403457067832990578890032697727155145220624388395217259941239017552088528065342920542320256390000113094143976098721765655940316953598219660,
    -5999055872378940665433256860248897161781732643365262617158146743436797747726582205029010496235661814132893048331735352919882134455332364151890797649767955911001361676729686729741989991801156057848939178697422639227993362150700326107316740601556725325485724205807472364173989504668160085637733696295700039364245458452579098235433547135735715170499708621456599685872605127296054050520077010180579265848970525156869874488457440240533559417414600760327079097463450858591867137926910488954551966193991762349962284251350,
    -2120793082520330813320501909493791263211387113281035936408970393849246202001651927487310416027438621660236789272114134997833488912873688795337187375655487213814555529567248983789062876134012757624060500055781271602601021370333145568313452319033506708474399650603855175739932285712182595717050956811688754511484550540168139116445669260560437848751778146409203872766088886449940697588055013787605290855193374734041915686289893145836261971621210469897955143315811277707961691464915737186777840561139933584623848225266,
    -267274720706529560329270965081602470153811438151305313442960979827037742604994866024196091696358357092927708970055983829151973143421389055133392559868232402230036833032304934326459654930480812108938853126789976090031210528740555982492354205205532655538386757847733200647844437704116799148425111916421003338601308809802715012778203132102167023371724151488978715129158962232582848796511920102315470022571713154744651510026650513932673173715385753834908717312631579244289553594552320220275235249976141393138363083746],
    [0, 0, 0, 0,
    39704850236436597733320161857690529134038485647130482889760616744979424825611990151795846347898869530435502065773772876491127960393923908024620210378436855124998176013328247808238675739603547214646536499370373748246073571072893093043496821093138765693654898675550160288839801685599858353198919705494313989768505319085317077942489566053693795986808620732343319888692559167981903640689113340186954528248887998708818943476672622171305786687466648823117828681325029078530247775391634353696160037054478749954630564040,
    150704777834893417377506679485690136968885494232764191031336468882491623228329281439078998462091855363184624816082728773845572972923359255566058759314324615605090552467784575792255019978006393258537710958283915193758367768559063145136477214936324958368203754455252475375086011705489516211200132106624417140259140775842829063084611078329641598214066236168656219000629820904709418517053038638248776728363094841431343774632112753023923903308286461943563385251389642218787002705190115801724185312116079396821177428200,
    253590082322497263465919229168617765236464054462640158645206322922577745556927893558257763646781218437376364119379321939081079116800458226575075226050789571190280777336712488335571681236001443702380450377999876840044735450312723970191947539343281046636336769988006624681059026688469256867605797792401681471934895732101901799541385404720455814708155604844252057558426666874218737347713549213811557543844844530749936606512975148215242776487526141715101012347543781263709769238612175636691755751075844440690379464400,
    253590082322497263465919229168617765236464054462640158645206322922577745556927893558257763646781218437376364119379321939081079116800458226575075226050789571190280777336712488335571681236001443702380450377999876840044735450312723970191947539343281046636336769988006624681059026688469256867605797792401681471934895732101901799541385404720455814708155604844252057558426666874218737347713549213811557543844844530749936606512975148215242776487526141715101012347543781263709769238612175636691755751075844440690379464400,
    150704777834893417377506679485690136968885494232764191031336468882491623228329281439078998462091855363184624816082728773845572972923359255566058759314324615605090552467784575792255019978006393258537710958283915193758367768559063145136477214936324958368203754455252475375086011705489516211200132106624417140259140775842829063084611078329641598214066236168656219000629820904709418517053038638248776728363094841431343774632112753023923903308286461943563385251389642218787002705190115801724185312116079396821177428200,
    39704850236436597733320161857690529134038485647130482889760616744979424825611990151795846347898869530435502065773772876491127960393923908024620210378436855124998176013328247808238675739603547214646536499370373748246073571072893093043496821093138765693654898675550160288839801685599858353198919705494313989768505319085317077942489566053693795986808620732343319888692559167981903640689113340186954528248887998708818943476672622171305786687466648823117828681325029078530247775391634353696160037054478749954630564040],
    [0, 0, 0, 0, 0,
    6925590777149116864749037144555015267353663886759676106734377063805123203057753946810898130515016344377835864013256391780990886442948931036694936827770639515451890563274189871611849392222363359394007466709733161492720863856500615214076282212139911074238045190828273809428120564250932228000964531925837269046713643021048827587460588852665879931963984571128204981570522992312754278038183578625753930062733289751067120149262318972596926329114314433909490589916263308798260353357411060733289342454211830706227475200,
    27702363108596467458996148578220061069414655547038704426937508255220492812231015787243592522060065377511343456053025567123963545771795724146779747311082558061807562253096759486447397568889453437576029866838932645970883455426002460856305128848559644296952180763313095237712482257003728912003858127703349076186854572084195310349842355410663519727855938284512819926282091969251017112152734314503015720250933159004268480597049275890387705316457257735637962359665053235193041413429644242933157369816847322824909900800,
    41553544662894701188494222867330091604121983320558056640406262382830739218346523680865388783090098066267015184079538350685945318657693586220169620966623837092711343379645139229671096353334180156364044800258398968956325183139003691284457693272839466445428271144969642856568723385505593368005787191555023614280281858126292965524763533115995279591783907426769229889423137953876525668229101471754523580376399738506402720895573913835581557974685886603456943539497579852789562120144466364399736054725270984237364851200,
    27702363108596467458996148578220061069414655547038704426937508255220492812231015787243592522060065377511343456053025567123963545771795724146779747311082558061807562253096759486447397568889453437576029866838932645970883455426002460856305128848559644296952180763313095237712482257003728912003858127703349076186854572084195310349842355410663519727855938284512819926282091969251017112152734314503015720250933159004268480597049275890387705316457257735637962359665053235193041413429644242933157369816847322824909900800,
    6925590777149116864749037144555015267353663886759676106734377063805123203057753946810898130515016344377835864013256391780990886442948931036694936827770639515451890563274189871611849392222363359394007466709733161492720863856500615214076282212139911074238045190828273809428120564250932228000964531925837269046713643021048827587460588852665879931963984571128204981570522992312754278038183578625753930062733289751067120149262318972596926329114314433909490589916263308798260353357411060733289342454211830706227475200]]

theorem Mu5Nmb_nyR1 : posChart (j1Z Mu5Nmb_nyN Mu5Nmb_nyD) [[], [], [0, -1]] [[], [-1, -1]] 1 0 Mu5Nmb_nyR1_p ⟨200, 0, 493⟩ ⟨1, 0, 1⟩ 13 9
    (.r (.c (.r .leaf .leaf) (.r .leaf .leaf)) (.c .leaf .leaf)) = true := by decide +kernel

def Mu5Nmb_nyR2_p : List (List ℤ) :=
    [[2945924546631774165360945711194340665500078510843756657280060528964775026117934306296697492363367746392880036658357928694595844166822695860209557398963961386495441973251579877696805212303217019252247099802333461158290331707232829176127133096329623602026210136665667441116991491593653346813692045591136996054977383174153309444260060922337398108726267512750511343840300060039854460738107569439704041249513079413044731721021271216380318122914182607011423387336221698109203540880191818892478986798262245884266791680000000000],
    [-1472962273315887082480467905071640252471002390612272746005947899445192294212895781521643643262485637313775920745163618056499448629015481098876286862913913652320206005804401060708872388450920796533557097292757455893599107218233511638490173627388639777770726270831829847980963439954428735848318113567412757498926867589510490849562883064001882790361974000893907900594668625564137721504755545179513753687965867762947580697782846490629436330958277282846300830049996578999011569883598215356836941906105525969060265772160000000,
    -1472962273315887082480467905071640252471002390612272746005947899445192294212895781521643643262485637313775920745163618056499448629015481098876286862913913652320206005804401060708872388450920796533557097292757455893599107218233511638490173627388639777770726270831829847980963439954428735848318113567412757498926867589510490849562883064001882790361974000893907900594668625564137721504755545179513753687965867762947580697782846490629436330958277282846300830049996578999011569883598215356836941906105525969060265772160000000],
    [490987424438629027435378191930922381882165924246508172544376691276033148653673364671390678543054180516270996580303801981785219001426377355088642271420335910174342032171188853046498879265892906217599466919625330545965740481607693728481128028461896276314426513507340662023720072284567797143035608904428040386392397196625211656091306795883973233048211179658669680298178094429440976502298333061014733382409604389433267150979476009843989812090573254466818102673373362402979082590308419226493650021499341313961713812032000000,
    736481136657943541087586921130055135206942132440374489956510531454367262788704769196089504667473069711712402764409973274213054872656453609206842200113422728220794066398650454898172423604831880471497017864499351887529463730211270101758083955972867725008429480180158036499091219478211506156618008697175862437113140394348215449763323338942202282873269713245816433909343748216494475385793880692243477596673580008258686897412121871038416443927038623933997307946651834139932294851188140818091130104650284894729745882908160000,
    490987424438629027435378191930922381882165924246508172544376691276033148653673364671390678543054180516270996580303801981785219001426377355088642271420335910174342032171188853046498879265892906217599466919625330545965740481607693728481128028461896276314426513507340662023720072284567797143035608904428040386392397196625211656091306795883973233048211179658669680298178094429440976502298333061014733382409604389433267150979476009843989812090573254466818102673373362402979082590308419226493650021499341313961713812032000000],
    [-122746856109657256841317098406147166750782611331284609249459248256035925562407924244052801766972939224378300331015649858898514996026869605978713598320875770587757938649779574298309485825435517395059382080733725431090483306849914851116967444423613287117079774812264748454249897518611328694833429893790637433215748232930847568869838654413560017341302541462582471640183901341230870442533408430182513895952268118534979502915715348928537916040101733826917146432711147699171885591946389743051530797618613814199303155426000000,
    -245493712219314513650395556511113322975938396538794390900125697676628991314939998725738676794255694896877152426382760607716673516245162496994440623414592366562841603694039068037161040757759968543396888582334265765996920000257755578299702476111811082711021201483992448570415819388397479468522662574411032254159209455601375677337653027922609914450256284206469762616585747093810506824855036032132061371129320673529661520818571596323736059507078033042960738270864670668026119013302615432627911937244507372624775765448555200,
    -245493712219314513650395556511113322975938396538794390900125697676628991314939998725738676794255694896877152426382760607716673516245162496994440623414592366562841603694039068037161040757759968543396888582334265765996920000257755578299702476111811082711021201483992448570415819388397479468522662574411032254159209455601375677337653027922609914450256284206469762616585747093810506824855036032132061371129320673529661520818571596323736059507078033042960738270864670668026119013302615432627911937244507372624775765448555200,
    -122746856109657256841317098406147166750782611331284609249459248256035925562407924244052801766972939224378300331015649858898514996026869605978713598320875770587757938649779574298309485825435517395059382080733725431090483306849914851116967444423613287117079774812264748454249897518611328694833429893790637433215748232930847568869838654413560017341302541462582471640183901341230870442533408430182513895952268118534979502915715348928537916040101733826917146432711147699171885591946389743051530797618613814199303155426000000],
    [24549371221931451357491793459210827322310541624439357577999089716274147203218695243493889492460480345399949938129441280046986741584413005788067918358461867172577476496858353079466274512359082123292131411396144886082041424299675819442399643959943080807894647773672939769789912901468236957766987070363032774299261333870194723506447266553191628909220079815359818276617235664688031145688555020685429907262513237657625205555052606852886387911940790881703715427370039715064418198152985068203437740816589068096757755463400000,
    61373428054828628371940890835516723531972796794255998336267996422773487545142530708569391698926459567723469605052022630824911678346423989733823213778228834330667985865288476509474328832776648666515582581022520443453106732924343865546450926864979882649825693694299429136044656304378429643337759967988510004238295660726311483085119635382322212971038958352551942817992121127124556600454802641521707284618453240433419699136845050904763094126554686524280994769221785000298070371368921187359297813417318306845096316448023480,
    81831237406438171154847426320768388005500843313863538984634476702932888499307935263689521944964139049024337015036858500422480016862522407675020355846871243481696078466876650732047876820724234698511195213986434723634996725726228606996125226718689974201814593258633212134380482462952320968397323581124390532571027895198313945643222116912364875336226973447394272276516819792326748374060507675680783539545713759749287025158316800552933940207345608021729460159024865575503835987111333265747082510676502582686432458710366960,
    61373428054828628371940890835516723531972796794255998336267996422773487545142530708569391698926459567723469605052022630824911678346423989733823213778228834330667985865288476509474328832776648666515582581022520443453106732924343865546450926864979882649825693694299429136044656304378429643337759967988510004238295660726311483085119635382322212971038958352551942817992121127124556600454802641521707284618453240433419699136845050904763094126554686524280994769221785000298070371368921187359297813417318306845096316448023480,
    24549371221931451357491793459210827322310541624439357577999089716274147203218695243493889492460480345399949938129441280046986741584413005788067918358461867172577476496858353079466274512359082123292131411396144886082041424299675819442399643959943080807894647773672939769789912901468236957766987070363032774299261333870194723506447266553191628909220079815359818276617235664688031145688555020685429907262513237657625205555052606852886387911940790881703715427370039715064418198152985068203437740816589068096757755463400000],
    [-4112215667822083999835961625111456511405346051820720916659486051166913413123898653328655356733083577806435510239614178644244943405855702290170922156615941650307182283774487499602439422821191157660871813454294339899972930311590444473932128651405717954643981642157253337304671674994942453000562652687957506293042308160974378508234906805661653915464377057822926654395083439678993100755944028978856726143660793377492591010914885589028332121062563688381400522765839875544109969218362597364268591697009686959312580139200000,
    -12374075420879386743959460230239162199483750978978800446798728660021378039705562932377692850780967813532866375497581544849612502866535504478304598457184733157962788729740788178657826491618845704323317981290038746849947686165685658457315091436744546448113542615849075862115269113467940868604827407092022973428741769815909289183775200323804461911020773568785802199588391977111114470922919756352845099834689664302012344824666087613106191382178672868326052287569711631301472443962069260741679189734919601174002749333086640,
    -20547590961973008083621998228113265690853481807028788194382737618700250073264306964710204234669745815874190950633364976821088768080500947773360982296335004985307375124035913210407390043012139058684941893873815278288652279354622401469724144658847813012505883196054588551401423266216974463364492390055933781415683181540824089114315335023973200245408742503176844294924496002632611507104902959484701688262320125032830862444283884212598733132536590079630163252895789705045062972657015043062897440142537745463967569465663120,
    -20547590961973008083621998228113265690853481807028788194382737618700250073264306964710204234669745815874190950633364976821088768080500947773360982296335004985307375124035913210407390043012139058684941893873815278288652279354622401469724144658847813012505883196054588551401423266216974463364492390055933781415683181540824089114315335023973200245408742503176844294924496002632611507104902959484701688262320125032830862444283884212598733132536590079630163252895789705045062972657015043062897440142537745463967569465663120,
    -12374075420879386743959460230239162199483750978978800446798728660021378039705562932377692850780967813532866375497581544849612502866535504478304598457184733157962788729740788178657826491618845704323317981290038746849947686165685658457315091436744546448113542615849075862115269113467940868604827407092022973428741769815909289183775200323804461911020773568785802199588391977111114470922919756352845099834689664302012344824666087613106191382178672868326052287569711631301472443962069260741679189734919601174002749333086640,
    -4112215667822083999835961625111456511405346051820720916659486051166913413123898653328655356733083577806435510239614178644244943405855702290170922156615941650307182283774487499602439422821191157660871813454294339899972930311590444473932128651405717954643981642157253337304671674994942453000562652687957506293042308160974378508234906805661653915464377057822926654395083439678993100755944028978856726143660793377492591010914885589028332121062563688381400522765839875544109969218362597364268591697009686959312580139200000],
    [546071661469228612075966604651949638886172433016946341717040471566402163255606867719426878687077469650299188139120962745632964369856404691385426274666508817894865380329389338792003407586339828491587065232508148861937904606619622641099535610266320500725144770003741981974349631502456042969201264583240776156773962397655621623460572743693225789578071568948884594269309449805959074860591900796406270599955318656772329121622391483489707568197532766102585623759279455548337001283200917422231839693261791708101424193900000,
    1781868062364063798519139851158435438889483595923266750425999624750721767112278023590445830361354450792646930804078906406045204741750694955784689493540125256261688334447498449497060690154864502016403121958753083883230934553859788546788856508502630146365131178990293716816148924388388391561356293061973114459194620303756205023630730713347693587418921290277711951148539985888354607042629648619180452235136298907081007890958464232365943708601671843019635883518277476955737603933903016894879592117992591954944554250851680,
    3271954072010334379746756351304622479045726098418299165188388760961760714231062006196556789084116058578728118439185154554886443330778799431247716653624243281404249454185901205611610319074812721619920524057193229021492096711323656773280267546904594264410047086963795384076250128255054751378716100827083478249408340463750393807717182704076440826413912729442680809892981154169257392454667256768771206873164511187483904471156410535449212446941382231065255574313965481250825250737495113151312586083713640590611609532008860,
    3881949837353080409250515465391005059685529693637926920373603923255500744854671054831688360666015801369998078915738786785203055243230909274687628311467125944794774260230410627021964175430020588563852894154179189385973009587066478740121506013576750298756405042514081585195097672461029251394722187526351925017914021193350689831564006678023734792116529809906989225444273815823769972215491491850511524882694159238543512579452842701043431676494435727753746993101037735055341270236069536981986794891644876145216963892834360,
    3271954072010334379746756351304622479045726098418299165188388760961760714231062006196556789084116058578728118439185154554886443330778799431247716653624243281404249454185901205611610319074812721619920524057193229021492096711323656773280267546904594264410047086963795384076250128255054751378716100827083478249408340463750393807717182704076440826413912729442680809892981154169257392454667256768771206873164511187483904471156410535449212446941382231065255574313965481250825250737495113151312586083713640590611609532008860,
    1781868062364063798519139851158435438889483595923266750425999624750721767112278023590445830361354450792646930804078906406045204741750694955784689493540125256261688334447498449497060690154864502016403121958753083883230934553859788546788856508502630146365131178990293716816148924388388391561356293061973114459194620303756205023630730713347693587418921290277711951148539985888354607042629648619180452235136298907081007890958464232365943708601671843019635883518277476955737603933903016894879592117992591954944554250851680,
    546071661469228612075966604651949638886172433016946341717040471566402163255606867719426878687077469650299188139120962745632964369856404691385426274666508817894865380329389338792003407586339828491587065232508148861937904606619622641099535610266320500725144770003741981974349631502456042969201264583240776156773962397655621623460572743693225789578071568948884594269309449805959074860591900796406270599955318656772329121622391483489707568197532766102585623759279455548337001283200917422231839693261791708101424193900000],
    [-74054893914711736337836756363371331906987364450356012660387790091380304867861797539817713544707927275469899889953591468012632003661613470157720433617610963253762446471136259729950529659198168239251602949711544137896251904769850983712538586781972135330404364951438039106278240332728378684871456770465707058072800159111917298247986604964046797616686367072645267473105005467836962767703269974136777275923232323779643444057712941260380884233345615759513691266578101975121803287016913056523571626545844361636214298800000,
    -330310555575400842843343970879700529990979248322951326354357650283124991433969270197795033528862490109304166985808574127187712047156297916329473549713836782531607497244098049984120755909184071227509355464265855838459522616767824475057307332599111143955546577550839601076386017915244177471591754515936619875566721134108718144406376880795843055050571009895484820906739909597846070008032911013016667033428886880643826237132747739844423937669848931730732620814917820537254535284274872187290929511054732301328202306394961,
    -714441676864993665176233996107218869258296508213766028574884686720102500300684531672201515286250592205620622208793564706133710274860206303568216497077630466025040606182778499605795882201117287701619422033308758452223223112074768239992879734578172632270129980810891072070629048106009723819566818996686144420497710088757330736132988676084275627398987160709472099378150921760272308342374797006950928964913694656575918909180986858409565145133614616687211154219979881152440063372886274575053372219204498370102876500737625,
    -960222265295683422147011982349762264471409152330351857858073404338708887169947237264224915753393627597146627725990891641808661521366834649533433150961184528633374460319413255488420174204515994457154008347897792102965843026312291754849547565182536151483221664856814313105302511518664747574569543065164033068974520590685999281742881791259679624542465386529752437510661595467930464016378678090965988460386919951007222253189066165275648019024567050682865307878331622225987113013114841558688334168409975228589528151874070,
    -960222265295683422147011982349762264471409152330351857858073404338708887169947237264224915753393627597146627725990891641808661521366834649533433150961184528633374460319413255488420174204515994457154008347897792102965843026312291754849547565182536151483221664856814313105302511518664747574569543065164033068974520590685999281742881791259679624542465386529752437510661595467930464016378678090965988460386919951007222253189066165275648019024567050682865307878331622225987113013114841558688334168409975228589528151874070,
    -714441676864993665176233996107218869258296508213766028574884686720102500300684531672201515286250592205620622208793564706133710274860206303568216497077630466025040606182778499605795882201117287701619422033308758452223223112074768239992879734578172632270129980810891072070629048106009723819566818996686144420497710088757330736132988676084275627398987160709472099378150921760272308342374797006950928964913694656575918909180986858409565145133614616687211154219979881152440063372886274575053372219204498370102876500737625,
    -330310555575400842843343970879700529990979248322951326354357650283124991433969270197795033528862490109304166985808574127187712047156297916329473549713836782531607497244098049984120755909184071227509355464265855838459522616767824475057307332599111143955546577550839601076386017915244177471591754515936619875566721134108718144406376880795843055050571009895484820906739909597846070008032911013016667033428886880643826237132747739844423937669848931730732620814917820537254535284274872187290929511054732301328202306394961,
    -74054893914711736337836756363371331906987364450356012660387790091380304867861797539817713544707927275469899889953591468012632003661613470157720433617610963253762446471136259729950529659198168239251602949711544137896251904769850983712538586781972135330404364951438039106278240332728378684871456770465707058072800159111917298247986604964046797616686367072645267473105005467836962767703269974136777275923232323779643444057712941260380884233345615759513691266578101975121803287016913056523571626545844361636214298800000],
    [7605171876503854511277450494924264843739099732337800825912125868655772348687755018798618641241998222439288053745674113965403746075316863114014875725748331499900380826922555638289143204246794298498753642489446363240669319490611993893919853972134219632681636617322182678631722312196137053767625398783786607403774384767801983436901815674683702289518107813885648008729495825390728462998334803037676090083974858512428694700949655111998152317086016034987682138777788317609519227098255283439697883264564968572591907200000,
    52282904114619073448534618586357897360034755203627205690422530129002398649109350703836325538657645017592657470849878317138710936084310041914022459411191266207003257626768240991052484031708837734263404969651758659621266152589706180878624430685115249592734958795621691705081936578430089520822022998269114554880895793399325823950882559343644088452471956571412807878481517323020996130527238199620310010562383743060911364535697385787184306667170175678788479499295165828384877895856776247966101303145557526788872228300618,
    166558900832665332132291462102634031163231569472088723911824422728509824718470607712243276860606721691969844777218266602696975016145682966021048503531520885774263765112642369093263661199360869411297159855788974863132417789532459851469210456613372883630593141078340437414061725897512517616725167402197127777451809581808773818565670084902368005946328932890962802227686081820647505357873582028375164214730489373428784269052973494372396605096529123711746411954556889925626054834534882081668142734892505881829904368088103,
    310495850240733132290967089293604566595871190009477089650671717633157431897495675970662570104435604746255731610850350598887611040030710076023014904558452603430262561935229553264385897125057798838959244254965298794650559268062367253887104879705655313368758150452483975575071534689092629906661322700978826526466623848369898401705962873550236071087684402408091712062060872834474428373691797545737520278870055387941882178075070069496219362068201920582926639747307704353210251677571689981022592063003291596449624564588850,
    379934137410525006089995306519989961385592653852027017653204714158841088437254485159972029678094175177888996898262736373537438576872194612579671327987968980730307863835637608876252325301301781435935484657546122998635876104359570581132522368747212627384377659280667847977636139934045483646002161230436579237219318301667749863615948399742625105385067193190542589047237584773004808145487215003132102522237447279199776993973394274101657430746623845814356415778056579884769608251617633112405364448424201354600299147202730,
    310495850240733132290967089293604566595871190009477089650671717633157431897495675970662570104435604746255731610850350598887611040030710076023014904558452603430262561935229553264385897125057798838959244254965298794650559268062367253887104879705655313368758150452483975575071534689092629906661322700978826526466623848369898401705962873550236071087684402408091712062060872834474428373691797545737520278870055387941882178075070069496219362068201920582926639747307704353210251677571689981022592063003291596449624564588850,
    166558900832665332132291462102634031163231569472088723911824422728509824718470607712243276860606721691969844777218266602696975016145682966021048503531520885774263765112642369093263661199360869411297159855788974863132417789532459851469210456613372883630593141078340437414061725897512517616725167402197127777451809581808773818565670084902368005946328932890962802227686081820647505357873582028375164214730489373428784269052973494372396605096529123711746411954556889925626054834534882081668142734892505881829904368088103,
    52282904114619073448534618586357897360034755203627205690422530129002398649109350703836325538657645017592657470849878317138710936084310041914022459411191266207003257626768240991052484031708837734263404969651758659621266152589706180878624430685115249592734958795621691705081936578430089520822022998269114554880895793399325823950882559343644088452471956571412807878481517323020996130527238199620310010562383743060911364535697385787184306667170175678788479499295165828384877895856776247966101303145557526788872228300618,
    7605171876503854511277450494924264843739099732337800825912125868655772348687755018798618641241998222439288053745674113965403746075316863114014875725748331499900380826922555638289143204246794298498753642489446363240669319490611993893919853972134219632681636617322182678631722312196137053767625398783786607403774384767801983436901815674683702289518107813885648008729495825390728462998334803037676090083974858512428694700949655111998152317086016034987682138777788317609519227098255283439697883264564968572591907200000],
    [0,
    -1206334910775698876606071353958332035416393042526054460513127340785543211488619099289198573009168843374036836483977105972466925328826625168836620795997977091231539570774045261172249684002222623312500843823412005671828756952118402420835810009893588296449800456863652828259774495066329713110934489355386036145618112838738087715230805599299383778646315738841739033166693896210245197541816882991721696267149000791271138789261827648582727887867181399671875680808082037984908443867143054132141122911761431147645322024320,
    -9899219126805628783572342122369572537099515874948253863270927916011373083632623012950445397850909167629981827501412952896785741311919226367337360618768904398530370476576200481556083085843966237530314779589224954265481064392172684154028494488285622398934965884576799756485163317140622157016361293769526404130534144033735207678376636233641696426505624969999016136072919948230919021441603240679262793175020941042482470306618624457364139932251896856466671868150945652390916390463448379592317233249853381194848251845044,
    -34097507973646063772242221529360557725180597917577973277103036755165700309012936676226832196254482789632641836231647916299656685456261053821408661871809653267819934693921864339619612844001461740527721910593485703166100849681607288240002349785351572120208568919517615561241841386889616688022248868124960164379535640396966290247524477477892421226969443469978501901609053763567496639505062715253734962694741474908985616418326510947717286546101233862743358233798341353717561965858591157988318881800730893974258411560240,
    -61709978637222017159092783424510793476067383024121880237879935128894953249503222894284415420765299055464244042189947400947204687787186289829275013668991751137304684155391487309296830389189652588876424734273251129076398803231455013759216045384679251738004552566743816534057114330668269534129870883156342420059852500109213466463373112601100086846846072414190267319645505871195162117339123242280421438169750735930054547037752362355984909836822534721935704679522728047814143483329775535796232035638779595986234504505740,
    -61709978637222017159092783424510793476067383024121880237879935128894953249503222894284415420765299055464244042189947400947204687787186289829275013668991751137304684155391487309296830389189652588876424734273251129076398803231455013759216045384679251738004552566743816534057114330668269534129870883156342420059852500109213466463373112601100086846846072414190267319645505871195162117339123242280421438169750735930054547037752362355984909836822534721935704679522728047814143483329775535796232035638779595986234504505740,
    -34097507973646063772242221529360557725180597917577973277103036755165700309012936676226832196254482789632641836231647916299656685456261053821408661871809653267819934693921864339619612844001461740527721910593485703166100849681607288240002349785351572120208568919517615561241841386889616688022248868124960164379535640396966290247524477477892421226969443469978501901609053763567496639505062715253734962694741474908985616418326510947717286546101233862743358233798341353717561965858591157988318881800730893974258411560240,
    -9899219126805628783572342122369572537099515874948253863270927916011373083632623012950445397850909167629981827501412952896785741311919226367337360618768904398530370476576200481556083085843966237530314779589224954265481064392172684154028494488285622398934965884576799756485163317140622157016361293769526404130534144033735207678376636233641696426505624969999016136072919948230919021441603240679262793175020941042482470306618624457364139932251896856466671868150945652390916390463448379592317233249853381194848251845044,
    -1206334910775698876606071353958332035416393042526054460513127340785543211488619099289198573009168843374036836483977105972466925328826625168836620795997977091231539570774045261172249684002222623312500843823412005671828756952118402420835810009893588296449800456863652828259774495066329713110934489355386036145618112838738087715230805599299383778646315738841739033166693896210245197541816882991721696267149000791271138789261827648582727887867181399671875680808082037984908443867143054132141122911761431147645322024320],
    [0, 0,
    283124642171478970435556425157181418487014121504715739454214270461776151504406699214485213813975753940745514271364431767217504545261391601880668189458086765272142024214456952931375667206784008518218125833884467092856282505345585370014404929777417096936338819435832817694288694519488611460367620126146134108252212448433735867383725103016710363434090945953863710711616131530856942974580415287579890600727601427954939475936941324079325264241372902146360421376270742974912075372913330984048037598682855405296487333746,
    2188609718283465878814059098532116635398245477450274102539510960171396104484074832669122639445405997756648849063677936008843532824965463227085872311527263939906954392230327687368762112710733975190756221164496569185358234485117161324455118568262218997577368878983093230201736249286274657921154311001327095063538866831367653642086917536621889748236923977013609381167347580992750429349817878090461100641881470287157839737906866119333601470913246235053977767040957402677882165555949840545683105040301078128640512485266,
    6137410597803210808594009988674994895871336590160752719013303686597617507658486993917172522578608396485314148504821716482616545741712974297245300807190247373299630115442191782700156388281909135077946951289490220302417345266545275670326134539257084910663238033933110993521776554994908988163792053437387098527803768771747129299920978335931222117335241711773329573765745083533095399921442486872029960547555220061016246333949935183995797992873613274963535592884615750661139604492754832176882532269172678846990258241350,
    8463851043382447800431014630600119357920210468430388711856013993775995109357637720925070193894356305338821627425016424481981034924017805344080193370242140397329635494852642096525539885555918336810817711917756236419830786573547399431770841801544566020044415948771701162028658000456245883406010725124412275145034228777626423050435571804652085465064817361427167806620027268142403827092410048138297501012802702403626692143960020777483043572403479884111836494439858181916339028619436645230494929655108912247292466179660,
    6137410597803210808594009988674994895871336590160752719013303686597617507658486993917172522578608396485314148504821716482616545741712974297245300807190247373299630115442191782700156388281909135077946951289490220302417345266545275670326134539257084910663238033933110993521776554994908988163792053437387098527803768771747129299920978335931222117335241711773329573765745083533095399921442486872029960547555220061016246333949935183995797992873613274963535592884615750661139604492754832176882532269172678846990258241350,
    2188609718283465878814059098532116635398245477450274102539510960171396104484074832669122639445405997756648849063677936008843532824965463227085872311527263939906954392230327687368762112710733975190756221164496569185358234485117161324455118568262218997577368878983093230201736249286274657921154311001327095063538866831367653642086917536621889748236923977013609381167347580992750429349817878090461100641881470287157839737906866119333601470913246235053977767040957402677882165555949840545683105040301078128640512485266,
    283124642171478970435556425157181418487014121504715739454214270461776151504406699214485213813975753940745514271364431767217504545261391601880668189458086765272142024214456952931375667206784008518218125833884467092856282505345585370014404929777417096936338819435832817694288694519488611460367620126146134108252212448433735867383725103016710363434090945953863710711616131530856942974580415287579890600727601427954939475936941324079325264241372902146360421376270742974912075372913330984048037598682855405296487333746],
    [0, 0, 0,
    -39403419015931432799133613069963167305974547259041930951755873577748082248853268864394974144371921741130781992898038888025929178399245668222295478943798074273632388734255707960172815232635376960385197812773596524815178284813034316544707716268503933939153575421042288769653320175907597107256308394787807085518256967217552175253403828838148902911757896612821926938612241976523171265350196421838183226069090092205070870429576468302173417604671828431862088676271866624902244156749979412471090002225385113060720564040,
    -149460910940274358070365894594639079540041443843590699503333856533132229127002366198226951524262189141126401751744611657587000403658754832986010696720852692256131685868502769114665638969531901677807019026354076833946008713410689567200226695751883414505614581744359529529308077143528973412827861521499385479981566097294201237677543674145484648796368416754711413595444880211447198633728949713108325757483133288566379953884530270460399955839370444854483490438802791644209512029590903608604789769636065928949848228200,
    -251365637741165910215429618434101402090251595235562443751222201710656276136740754272705983850926958717725295290743640532631355318980036157846554695443567705400233113934229767543132840745418820231495068015194247877762134716166897118877141505913130573821075868127867144739657630551048934702202042590559121012353413455794842836765611878245709431830315767200024606093273430751725739574435867030134061142103949404673785509505708469870332779494752192404140027935049041808117315305022813763458919297781272221545941864400,
    -251365637741165910215429618434101402090251595235562443751222201710656276136740754272705983850926958717725295290743640532631355318980036157846554695443567705400233113934229767543132840745418820231495068015194247877762134716166897118877141505913130573821075868127867144739657630551048934702202042590559121012353413455794842836765611878245709431830315767200024606093273430751725739574435867030134061142103949404673785509505708469870332779494752192404140027935049041808117315305022813763458919297781272221545941864400,
    -149460910940274358070365894594639079540041443843590699503333856533132229127002366198226951524262189141126401751744611657587000403658754832986010696720852692256131685868502769114665638969531901677807019026354076833946008713410689567200226695751883414505614581744359529529308077143528973412827861521499385479981566097294201237677543674145484648796368416754711413595444880211447198633728949713108325757483133288566379953884530270460399955839370444854483490438802791644209512029590903608604789769636065928949848228200,
    -39403419015931432799133613069963167305974547259041930951755873577748082248853268864394974144371921741130781992898038888025929178399245668222295478943798074273632388734255707960172815232635376960385197812773596524815178284813034316544707716268503933939153575421042288769653320175907597107256308394787807085518256967217552175253403828838148902911757896612821926938612241976523171265350196421838183226069090092205070870429576468302173417604671828431862088676271866624902244156749979412471090002225385113060720564040],
    [0, 0, 0, 0,
    -6923806984579483530022140819968716868837088982546379514793741591263354417075289443718485544147911268916871883330800627767597804160192185982432077002682854851722230477246773123094152330698178833398089727021618763528665349673530271599134407222460812100426928885963487064861770701880401617007557527974448383421349403967200105639552340893093415862966652530251150805040035555043363589115440597263033673999536972045098547481379789460501333337668077285770858604097449758207518295772756758115302990982239544767027475200,
    -27695227938317934120088563279874867475348355930185518059174966365053417668301157774873942176591645075667487533323202511070391216640768743929728308010731419406888921908987092492376609322792715333592358908086475054114661398694121086396537628889843248401707715543853948259447082807521606468030230111897793533685397615868800422558209363572373663451866610121004603220160142220173454356461762389052134695998147888180394189925519157842005333350672309143083434416389799032830073183091027032461211963928958179068109900800,
    -41542841907476901180132844919812301213022533895278277088762449547580126502451736662310913264887467613501231299984803766605586824961153115894592462016097129110333382863480638738564913984189073000388538362129712581171992098041181629594806443334764872602561573315780922389170624211282409702045345167846690300528096423803200633837314045358560495177799915181506904830240213330260181534692643583578202043997221832270591284888278736763008000026008463714625151624584698549245109774636540548691817945893437268602164851200,
    -27695227938317934120088563279874867475348355930185518059174966365053417668301157774873942176591645075667487533323202511070391216640768743929728308010731419406888921908987092492376609322792715333592358908086475054114661398694121086396537628889843248401707715543853948259447082807521606468030230111897793533685397615868800422558209363572373663451866610121004603220160142220173454356461762389052134695998147888180394189925519157842005333350672309143083434416389799032830073183091027032461211963928958179068109900800,
    -6923806984579483530022140819968716868837088982546379514793741591263354417075289443718485544147911268916871883330800627767597804160192185982432077002682854851722230477246773123094152330698178833398089727021618763528665349673530271599134407222460812100426928885963487064861770701880401617007557527974448383421349403967200105639552340893093415862966652530251150805040035555043363589115440597263033673999536972045098547481379789460501333337668077285770858604097449758207518295772756758115302990982239544767027475200]]

theorem Mu5Nmb_nyR2 : posChart (j2Z Mu5Nmb_nyN Mu5Nmb_nyT Mu5Nmb_nyD) [[], [], [0, -1]] [[], [-1, -1]] 2 1 Mu5Nmb_nyR2_p ⟨200, 0, 493⟩ ⟨1, 0, 1⟩ 12 8
    (.r (.r .leaf .leaf) (.c .leaf (.r .leaf .leaf))) = true := by decide +kernel

def Mu5Nmb_nyR3_p : List (List ℤ) :=
    [[11783698186527096661466867416518018725924204755270543747153895361031808849018308566956693626764862206719308772260858724360194244822836061106589723962215767097237939653906289958726322486631529227855614492519771832623068078389099126866476946089139306669915574944430340505418974009615516038797077868837737395074377926029466881176782940535639386868619318175907813795832272931336298070754759149178449794774330593063295287420841309297036160219165456523981009344220518946662667076282172861119171770735378647101646376960000000000],
    [-5891849093263548330721891422388681331000157021687513314560121057929550052235868612593394984726735492785760073316715857389191688333645391720419114797927922772990883946503159755393610424606434038504494199604666922316580663414465658352254266192659247204052420273331334882233982983187306693627384091182273992109954766348306618888520121844674796217452535025501022687680600120079708921476215138879408082499026158826089463442042542432760636245828365214022846774672443396218407081760383637784957973596524491768533583360000000000,
    -5891849093263548330721891422388681331000157021687513314560121057929550052235868612593394984726735492785760073316715857389191688333645391720419114797927922772990883946503159755393610424606434038504494199604666922316580663414465658352254266192659247204052420273331334882233982983187306693627384091182273992109954766348306618888520121844674796217452535025501022687680600120079708921476215138879408082499026158826089463442042542432760636245828365214022846774672443396218407081760383637784957973596524491768533583360000000000],
    [2945924546631774164960935810143280504942004781224545492011895798890384588425791563043287286524971274627551841490327236112998897258030962197752573725827827304640412011608802121417744776901841593067114194585514911787198214436467023276980347254777279555541452541663659695961926879908857471696636227134825514997853735179020981699125766128003765580723948001787815801189337251128275443009511090359027507375931735525895161395565692981258872661916554565692601660099993157998023139767196430713673883812211051938120531544320000000,
    2945924546631774164579857846804344957217896785210046617777799653054739779576014505970247278683110891801688767019267871086670731743332763048588805228150923761306465324618633390763500848393107167386705729599868038722251657220725089257464583112622504444806104283647560292702517886068725896987527714388134223864273209709828842674516088316640681589637814751537208986597285339254173150563841436404839142759385387098322139532379054355718536734122128342654956078200529447187438743730685363779853556504332829808598825303040000000,
    2945924546631774164960935810143280504942004781224545492011895798890384588425791563043287286524971274627551841490327236112998897258030962197752573725827827304640412011608802121417744776901841593067114194585514911787198214436467023276980347254777279555541452541663659695961926879908857471696636227134825514997853735179020981699125766128003765580723948001787815801189337251128275443009511090359027507375931735525895161395565692981258872661916554565692601660099993157998023139767196430713673883812211051938120531544320000000],
    [-981974848877258054870756383861844763764331848493016345088753382552066297307346729342781357086108361032541993160607603963570438002852754710177284542840671820348684064342377706092997758531785812435198933839250661091931480963215387456962256056923792552628853027014681324047440144569135594286071217808856080772784794393250423312182613591767946466096422359317339360596356188858881953004596666122029466764819208778866534301958952019687979624181146508933636205346746724805958165180616838452987300042998682627923427624064000000,
    -1472962273315887081985596717746503165884462499047690431484179997277703970221535264961974741108886034301787376129192226202186822102352435764881336031113651005392357991095804359643773183515928673508560209271090180726162531277007888818048376071901024117667760008477269016890577384442051490458744361849183790179826873790646573920192122946805205997365715030667765692711447739125999818941741049329251170347932821662822977949252978219498048677405421444201639804148512188798307436816121105689440528760015225867830560942016000000,
    -1472962273315887081985596717746503165884462499047690431484179997277703970221535264961974741108886034301787376129192226202186822102352435764881336031113651005392357991095804359643773183515928673508560209271090180726162531277007888818048376071901024117667760008477269016890577384442051490458744361849183790179826873790646573920192122946805205997365715030667765692711447739125999818941741049329251170347932821662822977949252978219498048677405421444201639804148512188798307436816121105689440528760015225867830560942016000000,
    -981974848877258054870756383861844763764331848493016345088753382552066297307346729342781357086108361032541993160607603963570438002852754710177284542840671820348684064342377706092997758531785812435198933839250661091931480963215387456962256056923792552628853027014681324047440144569135594286071217808856080772784794393250423312182613591767946466096422359317339360596356188858881953004596666122029466764819208778866534301958952019687979624181146508933636205346746724805958165180616838452987300042998682627923427624064000000],
    [245493712219314513682634196812294333501565222662569218498918496512071851124815848488105603533945878448756600662031299717797029992053739211957427196641751541175515877299559148596618971650871034790118764161467450862180966613699829702233934888847226574234159549624529496908499795037222657389666859787581274866431496465861695137739677308827120034682605082925164943280367802682461740885066816860365027791904536237069959005831430697857075832080203467653834292865422295398343771183892779486103061595237227628398606310852000000,
    490987424438629027237759047710334389332368085041924731039583261586393659789413647135753305084737621953102089645925396642219977885027269999413282212755947146530229327755243150358910769259098854912774588455079288155219951845216332535009970848315855075167021378384504839577103745894247188105742831657244415540890084456953107839861791176375773316718111337574473910420978983705377849234200164624991570995016295294521001673754965711003337264642641486877956679911365370039396668518992697968524787828755451208134586890713920000,
    736481136657943540891913698436371802604677857587800321235366163975103158667322107661884303233324970983853289492619270504826234382561483006043779746747266163635430006472888415370592842210413903665078545830246512439236018124731455643302344851239544750483118496904014048444906622102153574837315385386728429452039647682224824478133306872512110640693160690679821280180318260317835549311021186809688949597754527209507231095976257337974878852247082698873785886813516696678344455355852358651200309497176996937302616159263040000,
    490987424438629027237759047710334389332368085041924731039583261586393659789413647135753305084737621953102089645925396642219977885027269999413282212755947146530229327755243150358910769259098854912774588455079288155219951845216332535009970848315855075167021378384504839577103745894247188105742831657244415540890084456953107839861791176375773316718111337574473910420978983705377849234200164624991570995016295294521001673754965711003337264642641486877956679911365370039396668518992697968524787828755451208134586890713920000,
    245493712219314513682634196812294333501565222662569218498918496512071851124815848488105603533945878448756600662031299717797029992053739211957427196641751541175515877299559148596618971650871034790118764161467450862180966613699829702233934888847226574234159549624529496908499795037222657389666859787581274866431496465861695137739677308827120034682605082925164943280367802682461740885066816860365027791904536237069959005831430697857075832080203467653834292865422295398343771183892779486103061595237227628398606310852000000],
    [-49098742443862902714983586918421654644621083248878715155998179432548294406437390486987778984920960690799899876258882560093973483168826011576135836716923734345154952993716706158932549024718164246584262822792289772164082848599351638884799287919886161615789295547345879539579825802936473915533974140726065548598522667740389447012894533106383257818440159630719636553234471329376062291377110041370859814525026475315250411110105213705772775823881581763407430854740079430128836396305970136406875481633178136193515510926800000,
    -122746856109657256728147811771956899643253664827156796166486500662040028991080887188199771533494203923250897012967881149998872605698254043222574178546729823734467567140175925162445620882396444754201349609426109427929380755289169745191316388740474683323036683601442854926748480540480509116144199505733966558068490911801426303401648041004494391945235893413322189907830902410520970413958813128826774860377955028947303227363930863962720073458058833258989590873307692341964344346906919823412241076786729969060983307174592000,
    -245493712219314513490464364381627494890311594025807527109875327912008562249012266290229050917882810082069635203206319733615585447168569668308274570855765271023234545722492493073346072181535063657697192239272421129101013827012094171854315611100810296118874291314591364270292073257534780089070651401463872089633189258458956107273468216468882078468160247780700139745003565589109471003330806125414482488145041452973659673706496249219080110453589636493110496205554167785535304826077604864285520750626826938100247826431531200,
    -245493712219314513490464364381627494890311594025807527109875327912008562249012266290229050917882810082069635203206319733615585447168569668308274570855765271023234545722492493073346072181535063657697192239272421129101013827012094171854315611100810296118874291314591364270292073257534780089070651401463872089633189258458956107273468216468882078468160247780700139745003565589109471003330806125414482488145041452973659673706496249219080110453589636493110496205554167785535304826077604864285520750626826938100247826431531200,
    -122746856109657256728147811771956899643253664827156796166486500662040028991080887188199771533494203923250897012967881149998872605698254043222574178546729823734467567140175925162445620882396444754201349609426109427929380755289169745191316388740474683323036683601442854926748480540480509116144199505733966558068490911801426303401648041004494391945235893413322189907830902410520970413958813128826774860377955028947303227363930863962720073458058833258989590873307692341964344346906919823412241076786729969060983307174592000,
    -49098742443862902714983586918421654644621083248878715155998179432548294406437390486987778984920960690799899876258882560093973483168826011576135836716923734345154952993716706158932549024718164246584262822792289772164082848599351638884799287919886161615789295547345879539579825802936473915533974140726065548598522667740389447012894533106383257818440159630719636553234471329376062291377110041370859814525026475315250411110105213705772775823881581763407430854740079430128836396305970136406875481633178136193515510926800000],
    [8224431335644167999671923250222913022810692103641441833318972102333826826247797306657310713466167155612871020479228357288489886811711404580341844313231883300614364567548974999204878845642382315321743626908588679799945860623180888947864257302811435909287963284314506674609343349989884906001125305375915012586084616321948757016469813611323307830928754115645853308790166879357986201511888057957713452287321586754985182021829771178056664242125127376762801045531679751088219938436725194728537183394019373918625160278400000,
    24748150841758773484775251748527784097950615529403935341074665533485188450048784376504899674991228382431163561018446376276914018428778278599236670404457859712767507870674596095479989111125806444685768473283062051489353026524841511628131735813166701355904570313868713718718860029087925277897094040958458618113610812482306699532678188276934923780170720173453090774954232169899436123223209801336178134585561627897230439559704987906631193903025322448529711873323044633693696505537551749603840914026502437032515508659352000,
    61552991275555558968591871985558062492379132264532085141419183478036738065343778573972699352887529033575401562560694597784077065934990831906285277068083833097182964864948706962293876134284337198102799980069129002231201884260018675463129937263745216839024475399172793236989159964049893887988247150996047954637861174754290014375475728602469406483652038795796873750824062184611690020417763363707369694998491145817881050367004175537380579356554333603410426589969116114859723443548039488737990530843411297792644594240375480,
    82074651580665279981101589918766193315278003463341195128671983910258419662572432081446729122961206704855431488693385300250705620951660935292121963438233120641248294332921491092884494846795278322506404762066491286875986319126334434894734258708748237067672420419750332334243811011468956254575700276523783068328224972879404596589895527724645481272166087265200970356338614094972032407805564877103381271829575784228041913095050130315970451851803714357788716040208890732900803850252205169781927034215623184277244263915966960,
    61552991275555558968591871985558062492379132264532085141419183478036738065343778573972699352887529033575401562560694597784077065934990831906285277068083833097182964864948706962293876134284337198102799980069129002231201884260018675463129937263745216839024475399172793236989159964049893887988247150996047954637861174754290014375475728602469406483652038795796873750824062184611690020417763363707369694998491145817881050367004175537380579356554333603410426589969116114859723443548039488737990530843411297792644594240375480,
    24748150841758773484775251748527784097950615529403935341074665533485188450048784376504899674991228382431163561018446376276914018428778278599236670404457859712767507870674596095479989111125806444685768473283062051489353026524841511628131735813166701355904570313868713718718860029087925277897094040958458618113610812482306699532678188276934923780170720173453090774954232169899436123223209801336178134585561627897230439559704987906631193903025322448529711873323044633693696505537551749603840914026502437032515508659352000,
    8224431335644167999671923250222913022810692103641441833318972102333826826247797306657310713466167155612871020479228357288489886811711404580341844313231883300614364567548974999204878845642382315321743626908588679799945860623180888947864257302811435909287963284314506674609343349989884906001125305375915012586084616321948757016469813611323307830928754115645853308790166879357986201511888057957713452287321586754985182021829771178056664242125127376762801045531679751088219938436725194728537183394019373918625160278400000],
    [-1092143322938457224151933209303899277772344866033892683434080943132804326511213735438853757374154939300598376278241925491265928739712809382770852549333017635789730760658778677584006815172679656983174130465016297723875809213239245282199071220532641001450289540007483963948699263004912085938402529166481552313547924795311243246921145487386451579156143137897769188538618899611918149721183801592812541199910637313544658243244782966979415136395065532205171247518558911096674002566401834844463679386523583416202848387800000,
    -3563736124728127596512249426321163558825883009165299956433173540729319961945673903340076212671614038309519864239135946706693041807713900160629077844138558988191804089125130295991497865645162029757522710766378226931024240735650801786098992498380151294294349025091651941240825467747132859953830417692754345418061258938979838457517050634345866037561362797791806754029079879397081305373184929538741823385860668240818984526113024112493210108247131375527826350393329437486262183816267637730330865959361685755475832710009600,
    -10635470014342577320853710985167028770194605809953516233100354901728868998556527968129306292913264416255947060564060792929958689196590631143244447322264181672128536441921193179504351329848379006248212421111017107029748982560168091532440259254352885645773751648983440254264276826904823662121552390404809891048528999622854887694725428782851558652311443104951541267300169792801410015811087004152098202387843337989816465228391232724546525400901428294855498206398716717205707762521076664933981791908137712977746066144894640,
    -17677899117579852591871583743706379326352247544390910999012429618277484820205195009997630337233925468409516791555664969627028649492161572412723890598539290221609887573086218572021313231363245163443433529703256196940435910448321998012221508863361662687830099523143658015579777958918635438327858265034457509217176595197778557609895917722194352200732357524559020824488701910789727416487273035573709749358043039211999602749500214063845444699824328682296864535151053160794908158082127527634553523223497321049392022290599120,
    -17677899117579852591871583743706379326352247544390910999012429618277484820205195009997630337233925468409516791555664969627028649492161572412723890598539290221609887573086218572021313231363245163443433529703256196940435910448321998012221508863361662687830099523143658015579777958918635438327858265034457509217176595197778557609895917722194352200732357524559020824488701910789727416487273035573709749358043039211999602749500214063845444699824328682296864535151053160794908158082127527634553523223497321049392022290599120,
    -10635470014342577320853710985167028770194605809953516233100354901728868998556527968129306292913264416255947060564060792929958689196590631143244447322264181672128536441921193179504351329848379006248212421111017107029748982560168091532440259254352885645773751648983440254264276826904823662121552390404809891048528999622854887694725428782851558652311443104951541267300169792801410015811087004152098202387843337989816465228391232724546525400901428294855498206398716717205707762521076664933981791908137712977746066144894640,
    -3563736124728127596512249426321163558825883009165299956433173540729319961945673903340076212671614038309519864239135946706693041807713900160629077844138558988191804089125130295991497865645162029757522710766378226931024240735650801786098992498380151294294349025091651941240825467747132859953830417692754345418061258938979838457517050634345866037561362797791806754029079879397081305373184929538741823385860668240818984526113024112493210108247131375527826350393329437486262183816267637730330865959361685755475832710009600,
    -1092143322938457224151933209303899277772344866033892683434080943132804326511213735438853757374154939300598376278241925491265928739712809382770852549333017635789730760658778677584006815172679656983174130465016297723875809213239245282199071220532641001450289540007483963948699263004912085938402529166481552313547924795311243246921145487386451579156143137897769188538618899611918149721183801592812541199910637313544658243244782966979415136395065532205171247518558911096674002566401834844463679386523583416202848387800000],
    [148109787829423472675673512726742663813974728900712025320775580182760609735723595079635427089415854550939799779907182936025264007323226940315440867235221926507524892942272519459901059318396336478503205899423088275792503809539701967425077173563944270660808729902876078212556480665456757369742913540931414116145600318223834596495973209928093595233372734145290534946210010935673925535406539948273554551846464647559286888115425882520761768466691231519027382533156203950243606574033826113047143253091688723272428597600000,
    660621111150801685616828996468496704511625637268214523725614052844442668444617418470847499016267896998595130004728567482379899254551662873871020012152646245316593788771047130834877030782656841618165438431924734798516867084088696993599029299693999994379114304007470738072975283814282756428084063868537529994998198735769975859558973676455742016068780822592336447325906137826079223292241406030972186357331409654824495171090269885140971592347956498247475645410463438994095321474089133774237158868379836869399096761212800,
    2114252631700334664226517986162847423853433655235948982906800559447707553395440682927280637864825960100817730248637315815523982547233272598276666563467639508100024400682727704762370759390658223414804985385624735530388223898851595955296465865814881835602501775480682289827717909203786335574615056976123491835973648442468883738362367970748915700054280547202171069908409089122381570167939186634184375077073703661759547378895579330788652920296459808425304257042417776877564941845999616898630960684853441880861614886827680,
    3855070464100038963745514567900481127806607196954256916312662676938892814822143762110659736759291635551879325189322863702027020649879998485409031990157119641137741530067408458873717589049610770224106670270247908242598534637983801808277580810680629707078199618941869304707623562727721819639727498972022626642711954928580490756974635390559086872394043200773793289348119572441728390793308591994678895028103830228732597256614314893706290196925968667717995755889651964278794593386500348654796303000598307005864075884017660,
    4602775246805113605952579606687164745419623421364540827026307487078785685380163165225414944092692452282036827398581427166844811600161344516654964998767392448894113276024763297496115874491523451027735321362365713717454374916975284573763226621669791470548958158007341325714574222879303043237048331795772052991758442300949252208384395985186528259959141812809139454603328490922195648993838786790100967257568001209680512379068586848285556778340485566109520580238929857294724949864075389100826442316695111511760259424325560,
    3855070464100038963745514567900481127806607196954256916312662676938892814822143762110659736759291635551879325189322863702027020649879998485409031990157119641137741530067408458873717589049610770224106670270247908242598534637983801808277580810680629707078199618941869304707623562727721819639727498972022626642711954928580490756974635390559086872394043200773793289348119572441728390793308591994678895028103830228732597256614314893706290196925968667717995755889651964278794593386500348654796303000598307005864075884017660,
    2114252631700334664226517986162847423853433655235948982906800559447707553395440682927280637864825960100817730248637315815523982547233272598276666563467639508100024400682727704762370759390658223414804985385624735530388223898851595955296465865814881835602501775480682289827717909203786335574615056976123491835973648442468883738362367970748915700054280547202171069908409089122381570167939186634184375077073703661759547378895579330788652920296459808425304257042417776877564941845999616898630960684853441880861614886827680,
    660621111150801685616828996468496704511625637268214523725614052844442668444617418470847499016267896998595130004728567482379899254551662873871020012152646245316593788771047130834877030782656841618165438431924734798516867084088696993599029299693999994379114304007470738072975283814282756428084063868537529994998198735769975859558973676455742016068780822592336447325906137826079223292241406030972186357331409654824495171090269885140971592347956498247475645410463438994095321474089133774237158868379836869399096761212800,
    148109787829423472675673512726742663813974728900712025320775580182760609735723595079635427089415854550939799779907182936025264007323226940315440867235221926507524892942272519459901059318396336478503205899423088275792503809539701967425077173563944270660808729902876078212556480665456757369742913540931414116145600318223834596495973209928093595233372734145290534946210010935673925535406539948273554551846464647559286888115425882520761768466691231519027382533156203950243606574033826113047143253091688723272428597600000],
    [-15210343753007709022554900989848529687478199464675601651824251737311544697375510037597237282483996444878576107491348227930807492150633726228029751451496662999800761653845111276578286408493588596997507284978892726481338638981223987787839707944268439265363273234644365357263444624392274107535250797567573214807548769535603966873803631349367404579036215627771296017458991650781456925996669606075352180167949717024857389401899310223996304634172032069975364277555576635219038454196510566879395766529129937145183814400000,
    -104565808229238146887604945946982084781912626931808790514872197748494041984589959890778190392159808749399386929917406749180989313312467079705342760666344038560310797205264282260723377508898873774665733338514736521958591108099328604491980192390939188438034045512466742759694315442821306239683337467713709704973396965911853918923555381544995710548026795534395049348398196316677166247333674858084021356871493767145936430742402504886828076039539751565954882008528201252415677651908718035522644067641708315163114757067200,
    -424129745243535433062199347217024742772077221091246641143889113131599382874419069781581694150680765150600222706717910761656019939803291981375032526292565051767384725452497256301224796012510964321933084831042036554752525593907475238556377142945711689237998845567820988632038571112839879145804324594634760023160973325945204570810925942728278160479687443885947725585819809979607365896094829420685446787376362376261145464644165070019958306142913259231802762845770231156093383509164415115473636377127006178903713793962961,
    -889828545787854863167584208874423372992252624507263594134815916619019751638302629742711746779022326075162701234962121718728263460261950658222798951557964138505558061259222342955580920744864087602271751811310937140754281483601662474096262035294388725962671237265690837851516190392049749068156578513356257087084379269289518527977508748584433670385854927269537705119746770199825986602329971433795029427018226282605426707733756125321042874877035938122443193969868880664657591613916137849449995609771959093812835638996825,
    -1195694396969323006489255983785213978206313947426034732378797679092552132025235002612424845319750524192691603439044161014537455278351594288544175659366805239423163957789664343570789530513001744763768096070312653738890536636575226482334811862432625514719891006502784114083322186261825732073214066142955214039199188864779628040148201291592080926794156798120658217065661730790017879540951486270371175430392087734710319621166926039150457772861608701058670582934920212608267962946013985049603363299398036334210472068682070,
    -1195694396969323006489255983785213978206313947426034732378797679092552132025235002612424845319750524192691603439044161014537455278351594288544175659366805239423163957789664343570789530513001744763768096070312653738890536636575226482334811862432625514719891006502784114083322186261825732073214066142955214039199188864779628040148201291592080926794156798120658217065661730790017879540951486270371175430392087734710319621166926039150457772861608701058670582934920212608267962946013985049603363299398036334210472068682070,
    -889828545787854863167584208874423372992252624507263594134815916619019751638302629742711746779022326075162701234962121718728263460261950658222798951557964138505558061259222342955580920744864087602271751811310937140754281483601662474096262035294388725962671237265690837851516190392049749068156578513356257087084379269289518527977508748584433670385854927269537705119746770199825986602329971433795029427018226282605426707733756125321042874877035938122443193969868880664657591613916137849449995609771959093812835638996825,
    -424129745243535433062199347217024742772077221091246641143889113131599382874419069781581694150680765150600222706717910761656019939803291981375032526292565051767384725452497256301224796012510964321933084831042036554752525593907475238556377142945711689237998845567820988632038571112839879145804324594634760023160973325945204570810925942728278160479687443885947725585819809979607365896094829420685446787376362376261145464644165070019958306142913259231802762845770231156093383509164415115473636377127006178903713793962961,
    -104565808229238146887604945946982084781912626931808790514872197748494041984589959890778190392159808749399386929917406749180989313312467079705342760666344038560310797205264282260723377508898873774665733338514736521958591108099328604491980192390939188438034045512466742759694315442821306239683337467713709704973396965911853918923555381544995710548026795534395049348398196316677166247333674858084021356871493767145936430742402504886828076039539751565954882008528201252415677651908718035522644067641708315163114757067200,
    -15210343753007709022554900989848529687478199464675601651824251737311544697375510037597237282483996444878576107491348227930807492150633726228029751451496662999800761653845111276578286408493588596997507284978892726481338638981223987787839707944268439265363273234644365357263444624392274107535250797567573214807548769535603966873803631349367404579036215627771296017458991650781456925996669606075352180167949717024857389401899310223996304634172032069975364277555576635219038454196510566879395766529129937145183814400000],
    [0,
    2412669821551397752243254051600506188417228897206161220940012311043895745576908110201706477433188948657901304958148318959573775727319136688071761842763336742977431451805637661478015765689570611160750572477349213636937341949435524013942234220424721940510254126123596208203430803636546496208502868910263175164338440900418731347798265191433334375197861693716838471366115572735594262268578611193717948630445925846301995239642392801283694874490146493154474852891566222876443946965157108499168872966746713986450962400000,
    32140920572729880303204624287900326985865602013549371373432284435047499325990865292229562928275256187543703488487913924883772572376669676979811051430612531570746845085002974126371863590515439588276712589138339978164532623400940622280026670578913961455744196873570883585581639411241156366970521357748787468610217073413784973364186306492196718155735501641306167899964893215398315397359293602636835255152604790700296775210458483400834031961975535408835315670321441773475812727400308263755902445558729132867753585051818,
    118379917933236913860493721026303879466031588665314310374966275845828243475940290439877485438637823389655725466124578333630345480668781447663165396173122898251667143324863132436805880059384580224296418236015687484501773239261515204777213557867491153576084698991894883890417164470450575139663599347164236665542816884410566031717175856559319360495185501246706058026079557047127001861965534143693432504965737273740149385898986798147237926509914625231479692086756582234604297397124742587939482305086187019456235012699303,
    232224234312646951483664310512988058869283701570560610217544316950742920410107273505956471257469766763978598870380296046361675232812257726111742232908487694940275310299681606622744777448838259725642866496617174324536159953471879250736161165248194748300969120673757765191312847662073534506186647499052004798227470166566572720950331118581400893568815974746648861127479600783169086945313324168588441975310930873532740888543446917938775607967367629684403007762198091285950774045573344868395267598193255913448960091552850,
    288660646215563975381081522585719360906358914984817312089676603430961497665706729547566408141286705145092977369876118830977296090832352662561206540032333063275938035201699268609295010792471982813149805180229416814123253272077619256969768094106171164636822827086168259015106868163079132234403587783535175211343099835501679380627460911794885718966088556284002770247790821892204156175511415391825357521874360361425537052696826198301428368916199865455385533013066564319390289217459712032595066501926363044918734315010730,
    232224234312646951483664310512988058869283701570560610217544316950742920410107273505956471257469766763978598870380296046361675232812257726111742232908487694940275310299681606622744777448838259725642866496617174324536159953471879250736161165248194748300969120673757765191312847662073534506186647499052004798227470166566572720950331118581400893568815974746648861127479600783169086945313324168588441975310930873532740888543446917938775607967367629684403007762198091285950774045573344868395267598193255913448960091552850,
    118379917933236913860493721026303879466031588665314310374966275845828243475940290439877485438637823389655725466124578333630345480668781447663165396173122898251667143324863132436805880059384580224296418236015687484501773239261515204777213557867491153576084698991894883890417164470450575139663599347164236665542816884410566031717175856559319360495185501246706058026079557047127001861965534143693432504965737273740149385898986798147237926509914625231479692086756582234604297397124742587939482305086187019456235012699303,
    32140920572729880303204624287900326985865602013549371373432284435047499325990865292229562928275256187543703488487913924883772572376669676979811051430612531570746845085002974126371863590515439588276712589138339978164532623400940622280026670578913961455744196873570883585581639411241156366970521357748787468610217073413784973364186306492196718155735501641306167899964893215398315397359293602636835255152604790700296775210458483400834031961975535408835315670321441773475812727400308263755902445558729132867753585051818,
    2412669821551397752243254051600506188417228897206161220940012311043895745576908110201706477433188948657901304958148318959573775727319136688071761842763336742977431451805637661478015765689570611160750572477349213636937341949435524013942234220424721940510254126123596208203430803636546496208502868910263175164338440900418731347798265191433334375197861693716838471366115572735594262268578611193717948630445925846301995239642392801283694874490146493154474852891566222876443946965157108499168872966746713986450962400000],
    [0, 0,
    -1833777930426933693892462819742865207122024867609301139756124001444539732003344017709513762940803184414308147285382781769262575524913825824002779860326703615520080537582961245387422699878937459670526502251708585102882952330750873750731355387538115036849180411140286140095886227059922986074584566965705523020798663334794510412074797985409881832230177604269683554700847691543851007945654509704466625636950279273449698317009607769307511665050848882546947977093644347891813781357297491255242755907300283721084277824320,
    -12582148713572418500353056186605790018886266065098208333369781172482470211850171267967009992771206682649105746429278239895465450117571399374368910469746846878616089634358128627086311015530668865925576590924059761454464939809692258580007520854055207589004714734178110411620651739986880319243666133182811431476631290740663814449211648679968709745204015135379927876665395439609196207768476529355942030102099905958834824660486292832510373813634456124161407748634924624587821553401159635882120949646884911933760440041044,
    -40106228775992540474483929253312798134186307384187177863956593587383104635964977812386109602972459457834372897863321079292181074101345799940321088855425573772862524936480045841226461441893402653799339646108265203598684519051592835991057469095975052771429865460685953377126210519437582573517248883376970451166653808044873039501841665449971640665194544341155338887553537601843474736827844211338953851865451795117642605143831641427690908816515579735520300841974433820665853160288531656314091343497093978848586951980240,
    -70450449159586483284046778722693379073992384558757310438135236706359733205253385214914842727355449040385792161436242187645721158313558165716623534165645426628663414333624841568710677420157310572473460016559876260365065450383723069004435740878930679147458666909680028270468637057092580225707776501478228064059107921666540788947490975111547008994170916207714852993263709932453846636625233316844799139600111996464469680459134137661886835897623392146566922780211898946753954446463757023289183995381125352618695907385740,
    -70450449159586483284046778722693379073992384558757310438135236706359733205253385214914842727355449040385792161436242187645721158313558165716623534165645426628663414333624841568710677420157310572473460016559876260365065450383723069004435740878930679147458666909680028270468637057092580225707776501478228064059107921666540788947490975111547008994170916207714852993263709932453846636625233316844799139600111996464469680459134137661886835897623392146566922780211898946753954446463757023289183995381125352618695907385740,
    -40106228775992540474483929253312798134186307384187177863956593587383104635964977812386109602972459457834372897863321079292181074101345799940321088855425573772862524936480045841226461441893402653799339646108265203598684519051592835991057469095975052771429865460685953377126210519437582573517248883376970451166653808044873039501841665449971640665194544341155338887553537601843474736827844211338953851865451795117642605143831641427690908816515579735520300841974433820665853160288531656314091343497093978848586951980240,
    -12582148713572418500353056186605790018886266065098208333369781172482470211850171267967009992771206682649105746429278239895465450117571399374368910469746846878616089634358128627086311015530668865925576590924059761454464939809692258580007520854055207589004714734178110411620651739986880319243666133182811431476631290740663814449211648679968709745204015135379927876665395439609196207768476529355942030102099905958834824660486292832510373813634456124161407748634924624587821553401159635882120949646884911933760440041044,
    -1833777930426933693892462819742865207122024867609301139756124001444539732003344017709513762940803184414308147285382781769262575524913825824002779860326703615520080537582961245387422699878937459670526502251708585102882952330750873750731355387538115036849180411140286140095886227059922986074584566965705523020798663334794510412074797985409881832230177604269683554700847691543851007945654509704466625636950279273449698317009607769307511665050848882546947977093644347891813781357297491255242755907300283721084277824320],
    [0, 0, 0,
    251424799241580150222985505006023521820608754797894887431707689192299333705583032833906969578740960245109903668747535891086441741581386508386116930278378039187931641850152915721543642654177615699659580419695485087206138552135526594970303480633648214140434696259633583601400180888744986836482603706695872568950405171171694158172681161187623683309357357024093719546701792934308754618443424917051049444415824881534363544116359703786021083189398605523457013248992415513667031816191309456502432901269427380980238833746,
    2052976446757195747826944720455465891024528749111797770278429827527096299519229022305498192609471245563824729480550333986823445000781914363588502439783710487722156666904170280209363639557291540057364778947065974019843808255549129812171786069804794419371430422224617121278128322138090533512947602622050413959430234248968624590804420984498985949266632315804798364364830191907130965826292149484749481068505279180925991634672920172338922472329174704741932519590665152738041217373881633827872576081978789040607183965266,
    5860701146954670522272503731822799427692128696569772515302989800275977987794677416140848469892715231780471948158648989357147723168951754006536294492345664448703093238017181676783823595320402980619931406105355058153569379034855376544307346663856365740308210377681833734826202454341411183111675339154012980200687148133411067170946115935540208223664175531139869797979465171059012701118711533489128571150385830252723502642964945297071320841955588245690622602042285966522594671361066145732221400118810845852934310261350,
    8118298998878109849337089032746714116976417404511739264912535323882362043962062853338514493723969892923514244693692382522821439819502452302667817965680664000337736425926328624592007196834578112524452415155969138441863418662883546654211728149370439070154429303433700394298948626184131272870420680477316877620414638111228273476628752224457691915413801144718330306322673544172380979821725617842860279052592751906663749104816769657036838905631624292944294191401226458596440971606751642721702513876202968386614730259660,
    5860701146954670522272503731822799427692128696569772515302989800275977987794677416140848469892715231780471948158648989357147723168951754006536294492345664448703093238017181676783823595320402980619931406105355058153569379034855376544307346663856365740308210377681833734826202454341411183111675339154012980200687148133411067170946115935540208223664175531139869797979465171059012701118711533489128571150385830252723502642964945297071320841955588245690622602042285966522594671361066145732221400118810845852934310261350,
    2052976446757195747826944720455465891024528749111797770278429827527096299519229022305498192609471245563824729480550333986823445000781914363588502439783710487722156666904170280209363639557291540057364778947065974019843808255549129812171786069804794419371430422224617121278128322138090533512947602622050413959430234248968624590804420984498985949266632315804798364364830191907130965826292149484749481068505279180925991634672920172338922472329174704741932519590665152738041217373881633827872576081978789040607183965266,
    251424799241580150222985505006023521820608754797894887431707689192299333705583032833906969578740960245109903668747535891086441741581386508386116930278378039187931641850152915721543642654177615699659580419695485087206138552135526594970303480633648214140434696259633583601400180888744986836482603706695872568950405171171694158172681161187623683309357357024093719546701792934308754618443424917051049444415824881534363544116359703786021083189398605523457013248992415513667031816191309456502432901269427380980238833746],
    [0, 0, 0, 0,
    -40006281456941762667506710645417890962102424035219034827765359912210767402370711439196718551425817319740222138649506864956326742388602147826944941813075635976363963292400787656304536246571717468907875185967150971676968857332751869542285925917773597448156221930058031808026283195292119599141531016200820894018753670953081980631575303269238689061859344851864712838772876359440636016028030258535725830428685905212567016523768776040438155770261469214373568686378191532158251394033289294921230071883572386848540564040,
    -151948644729512476684647464376741194397729544621937682559339081231851017329656196679931045399921521585242847880420845890104145542187963678146106821907796538954049419067066382469844400986480884839268402890213753553570726823707436723072727734120766502230792927166145421220863946267450059009572402691749448800536715454391456888491678482513798547631764055582601024405814761597971638400377127563389227699243056394296307595379695235587447850777202479032643280063976492793364493380789327994843580854596092864692506628200,
    -255814526903828616716408839903134128382676513689717873539190444134499214977115032843809543442635478157027432948015003345530802914620880295303595756658011436980328440739195209128010521726584067173265832740805505802327336184458550821506753572773431519451597671848146104622460422825889579033009552994244241931516378008408960762317158931195202197585995442488479509023579902996711735120991231397489053945585739656826087703520241826560152773480300091026061996760038520719302223172201537509924592204370416659834817064400,
    -255814526903828616716408839903134128382676513689717873539190444134499214977115032843809543442635478157027432948015003345530802914620880295303595756658011436980328440739195209128010521726584067173265832740805505802327336184458550821506753572773431519451597671848146104622460422825889579033009552994244241931516378008408960762317158931195202197585995442488479509023579902996711735120991231397489053945585739656826087703520241826560152773480300091026061996760038520719302223172201537509924592204370416659834817064400,
    -151948644729512476684647464376741194397729544621937682559339081231851017329656196679931045399921521585242847880420845890104145542187963678146106821907796538954049419067066382469844400986480884839268402890213753553570726823707436723072727734120766502230792927166145421220863946267450059009572402691749448800536715454391456888491678482513798547631764055582601024405814761597971638400377127563389227699243056394296307595379695235587447850777202479032643280063976492793364493380789327994843580854596092864692506628200,
    -40006281456941762667506710645417890962102424035219034827765359912210767402370711439196718551425817319740222138649506864956326742388602147826944941813075635976363963292400787656304536246571717468907875185967150971676968857332751869542285925917773597448156221930058031808026283195292119599141531016200820894018753670953081980631575303269238689061859344851864712838772876359440636016028030258535725830428685905212567016523768776040438155770261469214373568686378191532158251394033289294921230071883572386848540564040],
    [0, 0, 0, 0, 0,
    -6927374569718750199475933469141313665870238790972972698675012536346891989040218449903310716882121419838799844695712155794383968725705676090957796652858424179181550649301606620129546453746547885389925206397847559456776378039470958829018157201819010048049161495693060553994470426621462838994371535877226154672077882074897549535368836812238344000961316612005259158101010429582144966960926559988474186125929607457035692817144848484692519320560551582048122575735076859389002410942065363351275693926184116645427475200,
    -27709498278875000797903733876565254663480955163891890794700050145387567956160873799613242867528485679355199378782848623177535874902822704363831186611433696716726202597206426480518185814986191541559700825591390237827105512157883835316072628807276040192196645982772242215977881706485851355977486143508904618688311528299590198141475347248953376003845266448021036632404041718328579867843706239953896744503718429828142771268579393938770077282242206328192490302940307437556009643768261453405102775704736466581709900800,
    -41564247418312501196855600814847881995221432745837836192050075218081351934241310699419864301292728519032799068174272934766303812354234056545746779917150545075089303895809639720777278722479287312339551238387085356740658268236825752974108943210914060288294968974158363323966822559728777033966229215263356928032467292449385297212213020873430064005767899672031554948606062577492869801765559359930845116755577644742214156902869090908155115923363309492288735454410461156334014465652392180107654163557104699872564851200,
    -27709498278875000797903733876565254663480955163891890794700050145387567956160873799613242867528485679355199378782848623177535874902822704363831186611433696716726202597206426480518185814986191541559700825591390237827105512157883835316072628807276040192196645982772242215977881706485851355977486143508904618688311528299590198141475347248953376003845266448021036632404041718328579867843706239953896744503718429828142771268579393938770077282242206328192490302940307437556009643768261453405102775704736466581709900800,
    -6927374569718750199475933469141313665870238790972972698675012536346891989040218449903310716882121419838799844695712155794383968725705676090957796652858424179181550649301606620129546453746547885389925206397847559456776378039470958829018157201819010048049161495693060553994470426621462838994371535877226154672077882074897549535368836812238344000961316612005259158101010429582144966960926559988474186125929607457035692817144848484692519320560551582048122575735076859389002410942065363351275693926184116645427475200]]

theorem Mu5Nmb_nyR3 : posChart (j3Z Mu5Nmb_nyN Mu5Nmb_nyT Mu5Nmb_nyD) [[], [], [0, -1]] [[], [-1, -1]] 0 0 Mu5Nmb_nyR3_p ⟨200, 0, 493⟩ ⟨1, 0, 1⟩ 14 9
    (.r (.r .leaf .leaf) (.c .leaf .leaf)) = true := by decide +kernel

def Mu5Nmb_nyA1_p : List (List ℤ) :=
    [[5891849093263548330721891422388681331000157021687513314560121057929550052235868612593394984726735492785760073316715857389191688333645391720419114797927922772990883946503159755393610424606434038504494199604666922316580663414465658352254266192659247204052420273331334882233982983187306693627384091182273992109954766348306618888520121844674796217452535025501022687680600120079708921476215138879408082499026158826089463442042542432760636245828365214022846774672443396218407081760383637784957973596524491768533583360000000000],
    [-5891849093263548329931337589142623316300992429251447129540825889900141991272765969176759672048210593724836243329140136003632185213108691652151755039385269878541365660543908755647897807250003686386590609286615661727469208900445982493776205359253343578957609751820273562871681568740047093597246107124461124957479031621012057758513840747492805429905989133931675966408129950775289248660485593281299099380380968781578597022265855767308300090434710040525791392868368730646344282072635022049840155463508589784553340035840000000,
    0,
    -9465968856062306416982866802356145517034292119372814421182843090185098998268044469732560348485663777634390697046767256646607587729615269260541637326304512812408253446320500252362220115585838153072780027511935939815510849698784467874704668492954170947827808922332150203973652854810094961771561262970094360262308491485274268458093130356044364029455448518738362641463412563244084628517497729788274231134469804790554766601600909140588072668382414650298002538242160622492387839086485908312276947200000000],
    [3927899395509032219336821006679988182119796738152979522578881279274962561741777775826399741457480032648105290034963448222256708734220671573934907436868236478061248061242583126445643330498635282477316240403098297711693119458456787913500805756213456448067339306323780188918980968965615820593133693225452628451538535773407488081937619602575035253824111390879012953902472553549019493451093260630794390800717898204637092948994776729815464632544845235981576839545255492603277171880336159499264770709119434464814254338240000000,
    0,
    -146204528767390872937530655819085857776132250933302627487609141544725686886953411482062682607466967632025043277190347266774230734494450803333488196126927697926347703628507967263479494953904346656032804394404761914348218471481713762448072801734945107270779609310926556551151178009971694639600641799594205166792834764496750610561578046390344488482952201886508318567293403857323476258558936910829044258841031348936453864179740799752967981841731406620555488842131194312684429462875296046879456158016000000],
    [-1963949697754516109345521746236764573621909226965089527678816797089233870295916298724236491112136701265912533016775120231321871506116354874084662654248379043808199273661760587136411253083485687988780601383545001726749399867995218838255248169231184163461381430058461040981322534006220183135411997391205876738290372157726534597641090386814023046232142802121127391044355885084445578969972848297337545766544489529907186827260062023211050556900478870402500672830245293249857897396714146415767219246405661066511088034683520000,
    0,
    116304561307339063197771345947240499801634283642960685292868214070659813302877229996973911715158554527742890697104498656493941232989820355196871190925816021310948564089980424604137021274058840846320317827256252468343180525870946969913409320663004896507000928642970863344067764641583357309436190718597130898541433641508407284529200093625351945592544807560440420613585833660257739556999110204653836041600204978129159696307099483115222562432365241571785876896316177447326929969596083938359275822940800000,
    0,
    752733045748968807158791611776279489103108635619746590257724890051476143446903672833639435683277016688522266790939834919186314104187069600943446191103419674408043966497834271967509365864235675621984785652833688726949584324318539501514353725229962220325102351409787362144883732139035116274591149430104394265105557705470053300502232345159790393958271185192072503024147074675062988307309838001350822208821418483603596565950612287048892339232171634893604821888087974269656454103923977681513370808320000],
    [785579879101806443425308417989266538904907349971922038581944953939261802523878466935208079997526608817375884849831493910323620048307681826080138807854886966253456608200203766730194768671845158596939075334558811526281880738008285985347101208296595510885801246759637295761286096507960571284104917516125573883675160526532995103895502472915929660023395126493794200462838587764047880976055173757926692430129611749300854335914819272139846935282709818385385402637177757924826490174539499999784080043909856230178825565407478400,
    0,
    -7045847754943043501783403676466126371871240984359746043446997702447481025866883245363818191377726936069992108311043083558503532363733256923848242684014938289821477784255502362175929965029193649484688955731986081156524371101794799378334886703706376476379228855683895662108372254560054780968907538747778645449676233116957410920645402084665883905195695431424348970383859216634087939361986795110427182610208871754611397313801612733745314206600797476437976162005879903169433189399800307005680850709011200,
    0,
    7383124950536891907246578333671277542154675997151161935672783154148902735341878990058694978932900115109963574082491275579531047252159526345174397015248593522904537939389966986233199865088631178858755883849354155653163027319788275588492595294190400395611887483339115702330296480931420112932294618565457402861133823669245054151002025513054100483717258074544766715594727687372976662908825060632725059236655275397906080585593877095388176832062715480796916004350142279556494472821193641911741758712310400],
    [-262401317223270305750446239398803601127813201704875185286733137559499042170941769881766316466694537361682739939104955142557972210013409182091326083565016459675282486065218178558385533269948013258426826060705908068311140451058342281973406243918365423196680857304520154770464079286185009284477725464506051164324740032193910948632749454744746658279207081609105200245605534969331090482229255161600480879439985610549806045767120057814170115569774922024446737805032543369206448375725991906397608954943903367167477696402717920,
    0,
    1068827542074280161957787611660094437945968099242907447506486963206892806747497399607138885549043741230108879719780711328084901238937654550828638739107670323672880420964974653637738333719922173570871301853826423405376979007092885724750666137838033065234850091378328485713758422568845402551742231789363790630593838994559159632402647380175226543604723461510664371610508220622711573565470145068417796870319426881761799017334918722937611134874473605640466528399082432349119024041293680573648363526829879342487730161860160,
    0,
    188726133517614852865615747122275802329063107575819403311683694812539240286196764971999585192006275441720600568364449891365785450425160420790291034776506160943844854970091621027782898570424443155327616779464920775618394680391299307984675310945154764296289748887572993501090459728945285169997308481029330800369020297299444059498967010059230525124094288832698245537868463355618769953960416795168187484560596734807837370140236265525030837338692558139277880830492130018108500773459190912109550227707871059214743186658080,
    0,
    -99615891213595070036867256208203033487959380016134664720833553210937297473556703367512936134225847859255562921063970763014947827156729650425413245927358218351855469645861616439365644541276898546573684705431817342631495443255422058516001055292352400404592548946696675177760049348592409823460615785105221400257128588810439678619099552516803707967579081115860490392834587142624837460347035226900015631453664537234182715762062573769440119306627015538292995587381636714420869018620164745957899634405410054745554469120000],
    [70003130630263493560806897447962355334887660067371929429820991333757019633312379167322419042376756069489074929007664335069892523589071067641204771224410728311297305002342509613768825199481641777101474480663816193663657838789278641013931196583625418044611897191287151925854943571255361831311526052134417559134782038072632283815384984780217544541655199694985711183264541902022855966176495515673765830572328265468515509027114111282597851981145780521222976402692999438474197492823320566312175082051987336796099668471253120,
    0,
    -351651111222888112656922158222721383361472470259153309663217983672033590215226430618008457482750647293854481646384061910245309801233994158682330637609905307414760410226498400485646713164523527598611589421236781872798632220215918810378976103727289263780402452635087165268101072747766446945318578148178256563129963824080297582978543063336525964419581186915501743777434793180458515264499235437159300325260047706579417413096655128581781214080976628892105186150160701290770245471828861168440477569289720785025571995880960,
    0,
    -525999597356293434008503093098645425898670884146346264580381047651045958357330621395268341688212501151777656396405084113886127775542801406510770989738574469559193008384346706054227195497948829153403796101857257530551306993268197926127905919145644562360042602550428535477137534995446505482723853289695378069114984641890515406389082436289239972901472737130867419472370218258842453297717554189036003902310520842147493855506451522259231791038931222491809808347897821784258315547388872202720527870712815225507672794167680,
    0,
    -68390523931174106268408882363122485079609772684395264877352090721469631547404091541481313774621899607144327549839918574767733726857540103958232285031069541389896277977174057176191453903281571376462075777847336322146625631085336162558291345881961346786273519107163137070845723306691727283641089661918910438270169645097501810978865785468070532819852680686882558902003098218289554012486105018113509799002995733910694982961794997762167325096368133507688060692507992206426741501956874767780448986945096281364729146233600],
    [-16620310332703322584207945406412660379359599903218878579297237431859831506114289466123404451241703453049923675762141060618544712323070186871961288509960763873467131549553831770090580880318111243659285118993947380165670757554287746342709179133050271603873629064551440949142457868227313002237328451490974420460042557337355376426174637740414329913199218704740933036863276553562416994751449670112773186792742617168325180657713571018126034429195123693028913909137195594030631429285294435950542202306061292561543415764998640,
    0,
    5401756411624740536209896138753628021417161577099004100708154627192962079858195518235899458050968808519408792176502969869241570454597067042669332618053681252156219269293678558684465680171206641788226426175446039887997512441175224191138197110841442956245583478467237097802506434789613575158253339380902140753974621989864435302852852980767025593715922281699556086477288766376447989058712500340292046019494213040496740672041048167060242082892186403920347234460385173774711557346337607312083949575630349172954153188723760,
    0,
    3139346540109759494550147266106332745135482143534912318673976998188191232872032749431474871726569529412755906990698774837779791847037028344504919932908557607023722236577663406847000193402851582042092013934527305520434164347209417359443623687959395565503628849944165858830699003318777371582397994549395140792473274703682639745367654156368752052168912116480106724191983064372290120999239720232661978072061019014583395654896335207105677131808166426527681908266115484765774337316223731773365788687022164758060019593313840,
    0,
    122456922705385574780702984201544833688148790604724194318033695291920908464738578137082985730929318872797658662748196512535244893806366882115831162242791172403326471494696067073125038336993846091265100881089846451626430498572108745809773062293364979279316229775939691612903569852033476108038541927533988072835291823271244037072825595138037830835879039411263318775655219123318773771283304227495658820539185980651667387169431562023236163087890597251637018522053908705085896638198021035387546186912539388842308109671440,
    0,
    47124284757484698162187634238439521140662828096555314590174492763165215392570642871577355851802668509079847782574036351307942887063544091865101351240272098039768757153660498133835812668729080248274276989800661683420048525743810089803647402040817329311382495282313868519939344371717738594129405010794401627742355714157587669248091289154661095710397938774457244809356074923631168050168641068883930924367522287301471383253202577446329179630556633237711289609525086113472904477276590054613572985845859786408996977280000],
    [4708458231633748825133626092513545704067706892738454585271902689762293536992385008739132892037312057800273807228679570415176251330924890073664223280705437871700003313577919401173184253161784780685170562131343207214382114121089652240879544160149725620663260996253390074042430525706575968184993130864480018492337239168125774485264228948903000977395472104645664618405742931230795660347196287674081386916478853689754296457249662754392301320616645896909169560216450528207457169132492667994485242645682890120892141330915712,
    0,
    -1531842175478739682020085162075512613920774364659655102009362592933453463840931270293833398050548027432896669147180169034746884753707428570795948304672235506440076402202886899816222050571199357282108092713387107128695918294559980084624643163349826289657758745236183799093833043091826100710399109528115021751122416062326039585061860715544004247035145906390390746693772186706249142640320268487396906145266674943776069631262017752218680955245295021762624085526623897628398049640585994237532298713021592863868526356382816,
    0,
    -2835092430897890758924806529368287241852893757687196687228936258593813148976627420175260640757246316181461404345590739294914946981239649507328891491071305135658331233895782140289541528450961562773479954750257579237078953854384934155889210601773335936693857029903292171180257687167468625589975117531512185230240097144423352799857880219092501404848390327313902816724404495315586432095938392531696804937903139499362276968388354679643904954399448308510750190685723384380802758900472370420523058300258904574457329523539968,
    0,
    -486784347384813339787717793770613793752469659074826670576077979405621981442061966914189673725965831760374024962790581838277755147482517549006418029747777405207848823083470515747882262304524311305546168952006911924891359427947159268427706098996876033824198517895054368385560903596073711656079571574514704306502454182837423961915976477036303932959321524966095812142353879348239754691003281688766232988194782454752381653250284618834279694170161840275901769877474702187110699920493210003435357711775053229939923080969440,
    0,
    1855677170562421757432134409838730106361904171214352238601441244199609229379743852997421259323489076832386524725564357000773739687047228237918247529000080259397678415853810356294282987811794332016995908116890948332253589981483435644282413009628444481636718587621461117875038617415016567527509741701183671010472732248730287309543703047247819691721992021203419952037360630354847472565973836742437010957955969443020913512612971541696970715385759476748030119401874973910684481207203306195475461236632268923795241672000],
    [-1256397961517731026518214944909168192618450519982583438137154344696889279622859334107575236156448445129584438176684533858781435133773321572085330119592050570420219645181584508577165390471689032556937955536031799587863880375977510800987348480317994147508676400792533469744733505873195494547208284080090024798029155242221857107160613536064037586546516113750003575349362337754568138952496998300361828300362526047076152574592335433257472587294147028461192678107666802043817980486663828995186570681286120953159909450988272,
    0,
    -1076839309644627757135561542675711715872628605599032344006358981818653605375530478310475603462076910806884411227616038302786055298682970012927649528044380239380983372206872153164821928902688779655910680505397518979644644072554097515811511550920946387335739435312570017144398374199212102279733443030965716331780934427462567263446069991602535379668819069266964716962510676163767671655263017000575219214149585827898918906579209672650947538092986049747717926402296359529881780345095360167196330088128832820004626428814864,
    0,
    321913569789991126450825427948973643911655785178971104490408723273231831284027774165669183921411242193206551468812809000975954273936833884431121354737385262278360800726783207272695737979587912833541891387678594264851292161248268079782859512166410846052681555040603822588434292953952623691816282762239204770739333268668950578883769363837650831709256271903917329432730032404076055763945312839402613440830328863879479781680623914663883662866795957366558956328280913669742607866493812653344525205700706168326575571407088,
    0,
    128926816757740756500652226696113864087065349418177746175338053815436097211633524182300472294911494490325766532277212805343561128401272963942811601034640117983509413736833823533336702852892382060827042747885724883595803319647143609833692856588993183374174280808178677515391694647822396485016921593861273411764549057647732744687017088960656105305448950566748300394392431798909394259142909233506395017534594964464144135262327527139350061392994247982411281617039083374287373307875585722799858886766869737535391422105680,
    0,
    -15538244195420052032993458566869796075108543765397148457287952980548838882518397348474455430900113079023813283014756723874908881610635891358777985129637191379258809303456786895070919637143638654341072524445244846955096919105435370196843914062605504577833855954126530103345055823667508885251775087246180994385304874984621257700096550544574563543210719869214648064874508456808679466282113573305222597653370136842592140268160346929454522237357236421958715755293383343293582210909348375461269587261000911685389639128000,
    0,
    -2110143036272951465473659547466492996340022388154884273012646400988779057453003162205376498771899698843055295547656084237895571165426530028148822974562378123643695288219758568055346079448360782653498915286656073918844380927724185423514187882235602072263547201664837630637589191520673945927254967992558101658741478722693267217887820129082044017100443015084477413388569442442485258713691267195613260570576456604490161862989720011445969964716505751285792749421995561774547793859590272906843861484452614049488512000000],
    [231885645228027784544289645412554088207950872734826159613984762608527417638709279995728367673919778221384483495421209664718744297941582386042173970306712836790548638338709574674055648580497622742115865024123283602700907335833112425900314785884709089098340315343386262879355279073341804196822691619409930494438732081165525205415124119138830829515767109881529327702677664144654191564994814648449302537511276129487190581132421005101044694395867123729613189810194998831806973225029703934249648318033529829425114067166688,
    0,
    519874156868184756635474024055543933109535329343264112739534750396993758224034095845211510422426403246785028043093240721917848133833826182435329979810641923502216949240160127185753079329265192900207726141847103619212962131021519691651290500251788106070696130938963581385498549724840129442382680615907678562728914766602698087491762118986350651288628076663889805095057172501447380637422174870744779824291774681760332389257698958495730776308199401714222589556812016876715016888798159139048129402558008981441374182671104,
    0,
    363551087934720543281688748936336430657478533876366697986082828297008984716125341278138638076459446600828277102600716344498328687090566960614032606097665803077854384017054548265507927844571512473608703940377781163338847975614335685071963619432051079770334729662385376906587306850082731356305769606456139409556327305028532500041668129951602057614314916975242854586668421785017147006099540734744436846816213389368167433681979293041687545441750439828313626626010114490587920424684569092277755661769487511070463117086144,
    0,
    95697553038362450963212369484409951872273606669114255243655522691613272807778609232512938933219492757165419042215768533704652183045178784110136000491494670893644153062450212002742760794705362129824655062475839992166295104941379489330997130196886480539095781234985177225561126718545286634974921713471792010032140452018574749178114237903617561172751815798551964592916210176646915692515550331701604367948399448272280202022582312416149591047972208433732526533397741833433169777197596880248405505875757187215590536585728,
    0,
    20810243605163375901806361319215903170498565408054069417277749037537536169771178032814166957167367592063701471896302597991989350446049485908624250398995442609849759340829414581695812470268844729074777750590332957663358127960268560549691473681226700558270320521737234876578136419493875986449798974156227570117297649534718321122651966203677407078235637919287947292667524280760955091447104699902504805058876808045434754367917554184936179024155085591348582365038213542927779710385603368607820046507438619859718116764000,
    0,
    675266861364496129098362128152537054119036006868559034155066854466907492793094228956723351900696410326014984609219351586562018599193866019364846501237488082391679393983198332763548771367424914766965510768454112323856203444817490539682248549312282817153453353560116051461045899532995462220657870642826901351301817107503189909567858404142081746937772313618359894040227532337997332603734880649859997146192196868180177902036581415788051505601039001320282711033568155174486694104120375838689117876689791698330581760000],
    [-25065322372341880903050111301321998527742176326066271722404430893055341961326308284212826351728080684903283029207165346996136430395015012828096760838544753252925594039047966656273798586926547479831512127296850461272098290717763528359236379227049031924096443854620822259287335769489107539144635232848484170811387069049527252992847001071351528775485731091782313604007056358114547597266355721131578943486168953246458103993936363017864930364519946056647951259104329751344626766085851236699308805775871614972402589340384,
    0,
    -82841131478775165571585855072098053382406721796993013599303876809223562811245274868492890167917918050978939830640209092482483188779611593650820244266452533972233903065130091642297277958713147289686549335534472725837876374743789521263411324464132007307663448612314966063866740269518878591500757273929928675037940654691259158692201796960521293549505032268716987171644772815931035663434516941782115023025455949535791020668190708310098918717768018642155395048464457777578481051964930141459291051901882612927603756417792,
    0,
    -97816884316899745116915649040394786342049055968992877233520701015271247158437688057391847022957800208830302404572765865034294732347265145850850492511929477102402029184108215803344543881137886335403162669283944760392520065636918384340792174719191799944146108405306566504055647396247914120055883929885817205708375692097137865658142177583108575938953163852339450414774701265463969004051273442360860738684723907582240739375104835953437454343657302247576225510822954668502187977052556692941691205847287351147244369627072,
    0,
    -47057087801467050951732929701816024009128600385683267328783151121025784221104497803346463578646699169650098521948696510169349368314276003928597620322520760003058609552023764118987949760400250066405313267613502538871284855625653309034272369643273675227422072088238125721839858266521546202609460474562721275011353838639131174749685761699713254274686608862539564254526030481951169004210275887705681512763125557996557134055533888178368154369563255456275818832725414853481945280226601597062415363889282525600136463778304,
    0,
    -6701436705626124323811776064229909883026038422028598742197551967855368405245489487424815001451266492208634006704105060185065142730127880767440935982339458323218773617003414115762386777606692886189775233028809393556023559726891908303631616850254820232577394136712304890543056574929326715331122090945284778992407874504249122329517173135428311053105199784017157931271766640661835663673020609799346184143058425157265612688834286647494968756626948455204785031318148055048117006725997497640377288964875374606941897644640,
    0,
    314575885374466179541248367967382638718051465588533229964344054067389507340286842809865370427469834686818912104869330436336251621479558133029675256159605296746115776994259185904498473442270654667412573538370649488519314287869009294023523310910030434265574303913398131820558795374076419578576494813063794537123857679476092461381206870346132056647546403117629476117279033641852402654143056196010669474630221546383698665849110869669719622527077339002252079944440156165494582327126311240329115203130797801151363584000],
    [887999420787654557153492141023996862678776068685069665132606817100097587221738330298265216913543886661992982002471647178835560100235482780331508391487102083840739011635650623872130753907222768351129395671308331564098353579889360416743843150745489541396390846237618520689969680159117262864009699209040825203925083654060095881136972098207582417818060923490503192895498093893820119010911402384494577600913654741780198649243521046820944932966558504963564452560516905122054039438387851584224202200492805174932374913280,
    0,
    3169441896372301658301215525673887381104648802717172873190694349661146341689107966633859001434955608336028843907597503846461705768571848844869695225325531055203753425751749189497016145868800330886957810376689697876617413625114223106327317478747007204784997473570487474206974746856390847017683065469386078347033248059570332911525194377319710617512428754017529728039328576093679678552505385036490343100603857750218787054964081324622939490833859762478051745000183595097302268379406958602843889816720705876113696517120,
    0,
    3797773377612661061669940692455580897630834524017994841436709227643609494539048563552783836604383566724185555605673543597491222071932567576163696986431103382407623586650490519266757044402973640036537284793675475865486118701563288257870838407533133405176081431905764689928202185834390759430635269787136061348882155697680372834731056527203018291869105781165086983202333365436517524100907516301015596393278883583073161727421114830282308633669854000276562454395565329168668679133749318569133537261954771755131036935680,
    0,
    1256662962480718806737450333563387033052371442601643936492029755964926305699881193837849670338855916776313423396152079502059032606721437462588003522211144654407740321797482659539481797068346618299158948833971555977737410152898130303087041857572252400782167916670554431442454877955999824825904408635499966003697815276220079846411724299766615348713354054295114510326009578685675691096804262529050506585350051665708749344914067011318738285671988475597021418790763468142732821508684719932579294890468131758034680837120,
    0,
    -642223726325611724097520012664403415763045819407353484226324857856878441569643087938542247963335866585779354406684692296686578429244846325493844971004407036796071471527762600093896725133140201719109693562866181955005649197883513825848377346194314301805872799282327913521646214961195554889413226258068064670743262572620106570953803963834893797221198836287428981275157104032583070953649495621457291611289390125827831518796490403822416031162938524541259808407019196441601518058189939351987473740509254119530837630720,
    0,
    -382555786778316570312753038422100069610455472023105787339732918739244007197845354559201866219219938311943084102289084868880534632370082276456338340622877280159202620790853305991506869760090742517559772308543628379776000694443218560648055124234950960800565911379986608552903973780078204438355731366777222468667086556670050613022694015510619053759814939944483043542663799481600797491140224501487967303050761216902007542010002862660840241032374257376206065241884025390913889374144447734052918985250514823615803136000],
    [110809452434385869835984594312880244277658622188154817707750033020881971248924063148974370088240261510045373824212102268495854183087182896587118989244330232247230249012387037945789590275557813750304119467355730583883533821704009843425220515394238577187808723053252380950849929028014915648015432510813396304747418288336781241399369421642654078911423753138051279705128367877004068448610937258012062881003732636017073922388197103561550821265829030942551849438660212940772165653718576971732629479267389291299639603200,
    0,
    554047262171929349179922971564401221388293110940774088538750165104409856244620315744871850441201307550226869121060511342479270915435914482935594946221651161236151245061935189728947951377789068751520597336778652919417669108520049217126102576971192885939043615266261904754249645140074578240077162554066981523737091441683906206996847108213270394557118765690256398525641839385020342243054686290060314405018663180085369611940985517807754106329145154712759247193301064703860828268592884858663147396336946456498198016000,
    0,
    1108094524343858698359845943128802442776586221881548177077500330208819712489240631489743700882402615100453738242121022684958541830871828965871189892443302322472302490123870379457895902755578137503041194673557305838835338217040098434252205153942385771878087230532523809508499290280149156480154325108133963047474182883367812413993694216426540789114237531380512797051283678770040684486109372580120628810037326360170739223881971035615508212658290309425518494386602129407721656537185769717326294792673892912996396032000,
    0,
    1108094524343858698359845943128802442776586221881548177077500330208819712489240631489743700882402615100453738242121022684958541830871828965871189892443302322472302490123870379457895902755578137503041194673557305838835338217040098434252205153942385771878087230532523809508499290280149156480154325108133963047474182883367812413993694216426540789114237531380512797051283678770040684486109372580120628810037326360170739223881971035615508212658290309425518494386602129407721656537185769717326294792673892912996396032000,
    0,
    554047262171929349179922971564401221388293110940774088538750165104409856244620315744871850441201307550226869121060511342479270915435914482935594946221651161236151245061935189728947951377789068751520597336778652919417669108520049217126102576971192885939043615266261904754249645140074578240077162554066981523737091441683906206996847108213270394557118765690256398525641839385020342243054686290060314405018663180085369611940985517807754106329145154712759247193301064703860828268592884858663147396336946456498198016000,
    0,
    110809452434385869835984594312880244277658622188154817707750033020881971248924063148974370088240261510045373824212102268495854183087182896587118989244330232247230249012387037945789590275557813750304119467355730583883533821704009843425220515394238577187808723053252380950849929028014915648015432510813396304747418288336781241399369421642654078911423753138051279705128367877004068448610937258012062881003732636017073922388197103561550821265829030942551849438660212940772165653718576971732629479267389291299639603200]]

theorem Mu5Nmb_nyA1 : posChart (j1Z Mu5Nmb_nyN Mu5Nmb_nyD) [[], [], [-1, 0, -1]] [[], [-2]] 1 0 Mu5Nmb_nyA1_p ⟨2000, 0, 57⟩ ⟨1, 0, 100⟩ 13 10
    .leaf = true := by decide +kernel

def Mu5Nmb_nyA2_p : List (List ℤ) :=
    [[2945924546631774165360945711194340665500078510843756657280060528964775026117934306296697492363367746392880036658357928694595844166822695860209557398963961386495441973251579877696805212303217019252247099802333461158290331707232829176127133096329623602026210136665667441116991491593653346813692045591136996054977383174153309444260060922337398108726267512750511343840300060039854460738107569439704041249513079413044731721021271216380318122914182607011423387336221698109203540880191818892478986798262245884266791680000000000,
    0,
    2945924546631774165360945711194340665500078510843756657280060528964775026117934306296697492363367746392880036658357928694595844166822695860209557398963961386495441973251579877696805212303217019252247099802333461158290331707232829176127133096329623602026210136665667441116991491593653346813692045591136996054977383174153309444260060922337398108726267512750511343840300060039854460738107569439704041249513079413044731721021271216380318122914182607011423387336221698109203540880191818892478986798262245884266791680000000000],
    [-2945924546631774164960935810143280504942004781224545492011895798890384588425791563043287286524971274627551841490327236112998897258030962197752573725827827304640412011608802121417744776901841593067114194585514911787198214436467023276980347254777279555541452541663659695961926879908857471696636227134825514997853735179020981699125766128003765580723948001787815801189337251128275443009511090359027507375931735525895161395565692981258872661916554565692601660099993157998023139767196430713673883812211051938120531544320000000,
    0,
    -2945924546631774164960935810143280504942004781224545492011895798890384588425791563043287286524971274627551841490327236112998897258030962197752573725827827304640412011608802121417744776901841593067114194585514911787198214436467023276980347254777279555541452541663659695961926879908857471696636227134825514997853735179020981699125766128003765580723948001787815801189337251128275443009511090359027507375931735525895161395565692981258872661916554565692601660099993157998023139767196430713673883812211051938120531544320000000],
    [1718455985535201595958343304991899898971273980933390835045263914006433560096051498538870861753581430744254395925017577237783492875509208319384126742954094548569478130741028160991170182136617692906695951703750012979460944693426657558720340012896660277637282507194839360546531364047347100442689226506031943209897934787598638761945936930710148748969692072563155794505699937075376428390390546814272944361492788787125221199371073890726396068108185132867633513293398558945890460031804979271078430147648967522653173506972160000,
    0,
    1472962273315887082175173842260110270413884264880748979913021062908734525577409538392179009334946139423424805528819946548426109745312907218413684400226845456441588132797300909796344847209663760942994035728998703775058927460422540203516167911945735450016858960360316072998182438956423012313236017394351724874226280788696430899526646677884404565746539426491632867818687496432988950771587761384486955193347160016517373794824243742076832887854077247867994615893303668279864589702376281636182260209300569789459491765816320000,
    0,
    -245493712219314513783169462731789628557389716052641855132242851097699034518641960146691852418635291320829590396197630689357383130196301100970442342727249092127889997943727251194825334926953931963701915974751309204402017233004117355204172100950924827620423546834523287548348925090924088129453209111680218335671653998902207862419290252825744183223152646071522926687012440642387477618802785429785989168145628770607847404546830148649563180254107884999638897400094890666025870329428697634896169938348397733193681741155840000],
    [-736481136657943540983425309834520979453442015740158000299169891865329833754695845939582957122457268242510905514796820933230377024544064205946308443470936274301199084687637284670941053166390971876912541326135982394174806614215340858833339841070848739656201952592514394049331433814017616326712184936403339374749915377064446492414983364672339863583117651338104468513539296870082754534776888924629150534163177584129282047468573890504547951094359533739755769407151636734396009210498010351358885469726242373648157841749110400,
    0,
    -490987424438629027236313832419864624900623140830039126602665797682372263010128297926743500109131022689995408381468442995272634080873171564062908100374866383900334660177037974955406219729297804593350026006402161339625746773631362908730940126752791182375765706686910800464663687479144603094756930722481579283773844890682112433871257494036199588435814970975549163905607383010318545529286510407798189900708210219978728071611424989580792573867905196864174367352614091875416933685424902758305524558503574233701890440090220800,
    0,
    245493712219314513747111477414656354552818874910118873696504094182957570744567548012839457013326245552515497133328377937957742943670892641883400343096069890400864424510599309715534833437093167283562515319733821054549059840583977950102399714318057557280436245905603593584667746334873013231955254213921760090976070486382334058543725870636140275147302680362555304607931913859764209005490378516830960633454967364150553975857148900923755377226454336875581402054537544858979075525073107593053360911222668139946267401658889600],
    [253676835959958330613712794910223489714067520151254250813168648981028157996030387167816084327738018875271176101399786322166276856724196398718802620120252646488187003191170309909929083510995696278126623198823765382705293040174267976973826368368535901117255276194577949946049620874645654170606817657827476089646141884391326358826355920783392559096745049783217794465735533375951923866347223000095057923307646715931376834542112116068232904284336562833698880552208515006228813126155145776872553619144317332570140602533213920,
    0,
    122746856109657256633506126041230337857342707285709037846448525791604168556021914773268454308140532828520450873920207962447395991436285144612028311512452727380649442162623374420429543004135180195643436690042896196990789400030615357657281094286598879826148689427769096977331630982931452614197619975719863863197061668345617568035432955969822762858558038893688519699362344984349046866205578103231466115248915383538448418198114434939464129755738288296713215741817769576463466722541991489925465750698253680781912454393147840,
    0,
    -122746856109657256854257437300836556270548479891314955498623459899489781624548208061009112487565305442373427546287882560852250721949410814323264543600462609942022501298530531617467772326971414470418893634047185576821637531666760104528522613173320650773154085349428619566846994234582265959153419896234176153756120974559628364305045585559466089025597794516519251572606139524149179535613632462855363023224897578195230378349265768679588246750480457800410763335069370424728814762933693259511725502971019546598472811398946080,
    0,
    8183123740643817125949231568156595586176332974230257468096663289934207815460264333538517532032180604377297681191695798866630143338500439783509765007337309165515059730016403872031768179889101612064292874733683608892866108476892514788022660908616370517952501417380233401870995657131935597255777785873436072692959241486080426485877379254103707212589216373010023193767048867453697464528012434008228784833833754197698037994731912449180527778117816736574901475321375005036531640679461027435362365475044105189755336741120000],
    [-74067764101348957654834840166927768803485157675656619115681904659777083052187537100833104884367594414426985672741121400629892428705784309083673005820271359587154692275102377777335311914904351841338263377236296730077145791663797008801942729493996154830526814908121835501642728109359715569939764899671828522274934519035415513612650884306878632143787786259571146297815942838845438157567533489632807028481341165424671596559729714829466513271555653272675232126462682423781290771674893802337690443148934067194565797875899520,
    0,
    -24517512909281763016765759656195052540857159951442151772828219471154302923944540163590043285261034867663573768491971555630898621444532036460480098044553613890389392176793127912284777664053702105567322758485516057832505558187735091372936369354294861995216544385798819512693911220457000888967171777768321628361854002715587143170113286994320507172052120840676781591258690147351564287176585722583098859318647140798093846819903189446870037851736048350263665532450197207873453502087424984337191610839212905168173475622205440,
    0,
    41577365115176658936222229184826592963770079465822484468285721399681414088708774068802256667122039018147873153571767374012041854240906381044589312359996718170855459390937277520158318886327534267732246584200439197767292488645026620494127332928415765952539943403735760685790868287326986435866946257464202108723741690523892142234209061150821956792399051247026222770287778152105406674159220096408808130209583826598064183690106426745752836237192825089293548585980776838185446295862228322682093173464066408549347877928887680,
    0,
    -7972886076890535701846851325906123298857918258391982874567963788941366039534222868440804931984520528615538750677382470986951953020345891578603595415721027525909840707371972344892215364523115468038694034550341474477347744831035296934879027211285526882770327118587255303157948601575728245105646864439304785189338825795936228208328536161736168179336614171868141936269474539388467196231727670640900038953110198028513566049720098636843639182626779833118018008031708377722390973725240495318405658845654753477044444324806400],
    [15081737429040333989934241079621020173328293948354951435036461637813270034052564849844547356931111759413346553680508834198332280128002707431523293155128880655916380598155988614823313009062054692819674316651088112919294881330672614662458825344923840121757051114429743750928595040752827623213269504470946662748667867523675130741180979000258455198938340987245543936065934995550912120931269104219227384299206416741217995546927375203653159123975609408128701156284082562565140982145267631918834830681580924652532139846355440,
    0,
    -929335382597252370291096472739563245003673723635727229237159464995988871712284240754538647128477316754647924908322442765726645993946056181328071778617772046353642467137641751618282955637097973160569129334763165570248380222667200271490754913552636938559294474115617352725589874311540324534732599412785034993938462936002711088817125001791168333415604095391784107379964601701581493756975416775688267656404631942163610330657662450668785084601020359753474263746031705774670783506591222448330724453836836523082017736640560,
    0,
    -12345662223162793514879704230822678419676493756637773486278368955481430873117534142818786443230994207632950142587145407409685763375628443467568020001999749456465121127567505227809428750517166508944945074249986541348780633554796898495048094088592101134764193324721384825152392453001592322858792736081350739076408278915019961483230574198811462995679246946112303670305156822824472307559644021280539895406561022710359082342452228441058284113066822493870235711759323128782704457261643116005671073009982582227589301660027440,
    0,
    3475045083596874867988982577332636700256173737966874585409996855028446556753204301960912246674932515032281663368970234550627812071782211086274066373712775504524823197820951575841025316599430649408942331228147338526337504057442413443841098886124556986768435950383570565227988463785560070710809410632030603790136707622708949363237487012417949271645101930204306692557515354078067558798832973672893230955777123337215584710944976341161139158929756693469276072261893954925599282452699247986151609699114374405704860865688560,
    0,
    -190365504877917977356650744205268298399300177386030592585255292299381475894110645819387314153662353502762672632715635003745350674538109059009278558034127741280078739905173562791141897582555507626356040507717398614425123941100502995060387283759818938783716313440405713273803998277215554178399957170350354876061343921948930983530042790820211265029596206320717680583227420349953748329767526041482525593272902635806938824187832872102520936580050580542663636008897184631508025937516490375342872426320804542319995057280000],
    [-4158058783301579333008853411400105991255344546634850450895407062866633367544925673348078356226429274375082633621093243886285431694089904679177687262740525480887570020434852129616574683948031043251068777590367901063089681319849470907224546438283584126078605176339966050717191635745294055101199146696505008846223503945327930921060467906207690209217419848414709250537314864587771610268979312170140723469305467624013221687121027409580035972122752429720645548359614851781607029914585802755112415050430100523313642515613312,
    0,
    565386523429415561830877929811963640363889332538646865220646773475540960298402326643629752222967911990489645563153711621039380730030628271312928932436350821589222132195713145036591887278743913552981738633533122107475693848580896910622080271404374504639146520016440676630885807803724006343769998552301935780183379784728187986478439961217923789136867748995548333346746008535571918705627950446009855888696123433429179530919952165720834219854871132609347120675156229793047791924155744788091063891429689457983583639326816,
    0,
    4225791465331017898504866171546696803794421019033638832032891473945574581419856767319084153950611334649047412477571591228802826259771624341226487404091674188479655172003313056525274830958820802604802034632452323806860140965092975579373510915627530010946881744232164842746936211358582080968135648051450895108108061276766401145116210341185447242427031289196143438551649231148357134641183376080456199264479624059021478078004022677960211009530663639246280183453291226857151900240480051857866477375783140009535844399021568,
    0,
    -397785351749425969275210277431390794429821496442495114648148492305328165148886053588367039950783472913557460304631220045037319978221730668008345537033602714877042986014480595091856939333348773829411079434088673310345281084413697286812465627999966674046338063160787541663936781085951605836288819720413549075909612215638071177702485390715647624490365076954600888528758321777956693644415791168172571696177255234503108345848664298233471347126057021000310706435348589975676874211685470433972728926575112158698201935990560,
    0,
    99868489650551027059654892233982033394991363697363369435013870091271581274585179084256914548002378802967406402044144233484666186127177941255783254051599399120093994612771623036034800934605380369837402157360026053359953118923694951660650166060461945724531888963454342937204451104484374640544677476942500442389210237651646584720212135524519131436891231259513256803653320197029700689008095367521808397344711763917814794188292599107187835320902902083401779146131264741826047386576025251364272639501537813063179819928000],
    [1453819791539567790856136547475031481311345882687088657810866306877491943664781263971053611967978114534404040723591075638914840053544234506723872814441795154553167794838763046850234696422050382001972610103337080359925701163709861141390241610699767959833913433168204422723329978888508231841954438230894290169625525518359349918934783066684488840937073992559248529401153520380072124795669120156673443710731254005087790006702775483637254283044598317831254842457931676734431015521740840300598432417036041301882285283557872,
    0,
    993257595189727778131147885774557386600985971643916690148866759960617013554440946035506037221277499746029656348742947445092722401411964024988767812220052387210826837163918879173016724206933810535868703777412729817139166173151888947054071069981513365774961046626638619875996196521934363524803368455551633453478369701861718288605854141232667694375220090248928406930524444978340342426727095565672079856868012803822627432220137414736531497094086576761028143171112905300432358760727045205291198632714717061289175990402064,
    0,
    -447411325829456987252002995343817871537961414845492224351562094922216765039939858588774324116390246418936971005242666051380462063268401290715964503319580188459715761144708106924497195799972069286608685547904618959925929426364066591776465904403645753789120125999261888254310337005092131248173894606935611805339023775174331138780386030587712312645494307042329911518795787621951055833723502714437380403291864802902168733568790596058968979009308895520740944280726726172569412148249898372680198134587138149426534763701488,
    0,
    -3535497336653932461801068856612152142984643518185422893274148763341895869781626939240654787046963403794005524452285082713537962792719551714826012760490108309633829527523037540645267024739546879531961287128524378339499025839458493670336823682434283546027637064318957370294166125748157335431188311695808943741850131771272211178665695745531928008539958307946366820317800208570699513732543901600182042758818295026189744170297547946402702193394422171999210298659074608698263400843948334759261662462249420846686495577680,
    0,
    -13981593738877990036657019258086749827661037881193689757222284929147439461820929012955876021752216294220934497267587250345641402572434707758243153099433011188154509466887228464884871644900213349945168860279405418361705108931796693902717090860357415827918901430841118360601517668812540272387308046200328010314535221812119686419807255500672559148450996934706128133167128238260999270158088602922042940328697212312567748824439358284516901031487334937090599833230923862077010785580869672742638359755790703084962913032000,
    0,
    2704774118158967898129715955181625487722101834671476446489315828852621478361157273058029395605115479010484396790159974809552149084154034975723358563219676004104516590771869828481171794983835709082013204868850542838399481101567402327324369136685707987940996175781753602716093818417354132021055433902525844235446951282453016307401335108968202776448556641230449638983959750090426778792977175242122553001497481076615836259705662503639608103109932784394365471520196008050497228026975384643658952440644808928298112000000],
    [-213826081296898817183026836860398511547527779718348323677534054281715139707274803365501783175759719712201809084813970752232228079768386390373715313911136571789773057793327194783289552006074606380493924536558747584359618948514706777148165399336420069107195775655403769360087787059529676184558831068812430049431080794757306104209010063823867176557934913186019048780988346958407645951655212162410281780613324305345587545103918650819298128406085693681635220924560194183815060567037916255018018547202250604605972979870688,
    0,
    -500865007934756938854368776140238417345818868211109125347713595025271067905633854341002037255900811738874578722951858474562616707922104080377052821522849026862463020580278075105876878385999462358520252184380677121849962066006847843924005450205540592770280723761579392398391108827972689420898637859535305497996629977541727004452736560922425377362760863425887367834317918907864430645629870930116580744485035104455458844929566452406042052669948365766779081238003606608677208431575224302625154183844376027472464105423104,
    0,
    -374987816551931524918493100506128000761805070463466101922283905121983727064210376009676341678702158137485536361149277824220037808598227688539713014140311664902139690962126009787966601670614324960111971330536352087791653951768793884477009232666075724207052119896921920721775710075706658960279320447503532213151702625871467655865826860815465434103284839098005745188392667784409903358789367076775385956151407604328781184772767707840075866509746249605197724416535871550652903569494971468417162393232135245688522205918144,
    0,
    -103623346436951657253957879974272113152481489863891819510230388410926639761032790929017215913125189149350512523927320583130927533856114465482887790507465483751734462278903733131486095204307768750153538241515732649877298054541206851501665308862805005125855315196779539358607212486090398922834830235933651519147017516578626755421618738440194680045910054027140920123817140775208200433788436250789114085482183138426760170754576978258367397923406271873270807923753415975977784974418420210766683815947192431391910564809728,
    0,
    -16612868472642409254777378689121335665184342590080216256793170148410671415595854365504639934948552280733685432144387830691068074764030234986271255129709221298036645025905763406132138910397380151582548546151379601981387775229889539527497723867444863175698287472092039345012794759303197725632095223435778143670043091923228040011652819004358684443334478533718832114786219036606183615452194179666984377383662354961074441389523388524184764966938789589888662927112672815630390131463241951692404451564230212578246034204000,
    0,
    -938411949764155247970659941137317476216834696893696998667146115911830520414388470663511620384429242195939631228457349449789721352425768039758971150842947375751910922177159740025318996779080383514653987350069502405400554965335505727001596801595058593810144066058797669877970580476444526736778644282783389109179018431648040212134444281071237695883313364715338126032174096351101846478466237946957284181176021753224155582066316519149309289416095236671719106451715965443360862002485161735747392207047604008366549760000],
    [25682140959898759116118265655328705257433402846661873833870071828237574636651574772526630945570336601704238651104744592999336201147897463596503875986593336554287088558626594942526128221954772574384660308493498749581094511087563444161362157876138008030398307413475775244864260998057590398496638694254132930544223924880723460669218813755791729923077330630908773137909444860255809371584091608638439404593131285955884743239547506032300493028459944708439584057043545974544206719462672652643722279471422137009146982300384,
    0,
    84332960757471014465628577095099854729210634705954079866183327123668698663371662165063665654677962918310955213821214172304224335091675375088964040885871683244215627742585109220926425955785030996288221977151245693968339763504883907775067934535617189088790792781702734374876286777083921899012960651212754840240426956751855297316424184896473682013704959251802476848097946796407617813136798704542262913472269659490340217161245549881626433151963850912650742528521747654677732536484939222998144513554442062017999117057792,
    0,
    98630410529871120809207263037171977125677414133499388451102303521852721983252929684715406847102933908409147257604734392325455619784455926911180167802870920411408714933799732446052464304826574786472244877038601174005216023486018653167572074886843370255105781435946485383297013577007054744548983350383042638447610174899945678086067008621046892083828351239169453498840771001047221887079425310189770606404332269791629562709471383944577619234703822303574196511732858423663235775179483548534429665819249623919501834587072,
    0,
    46714876643774866795032983094203855576102462631392424494907666105921720336044563789030536068944390232404097000934364073144382860282290166164795017959316027311803263932154491437860119399317264125534005853143316854016554600304386954465930196208207056536555661752380802349275930049093536824535573086413928179342508032995939857051844054042215883400028604515781230787029080827254052498258399789700128384310691711991694817556415912866979189076927808519213974934503549088365379301255541834051644710845317869741980624418304,
    0,
    6459659928326633444367157180647672404848207452793633931891370999772196192559113321536359487440147404303379828815658693532615195838426733969386316120539343594807451240117247708637908597521065004880863441308319213985347628732436359722605116517662718510965613256354209823844661485213645018992845255259083151582773743895846565765089753028227168988005339166720142780380411535717863729905260423807799580331808822790438099431662343265228787915299830236110410162677783651730947825599026651273967081093544430751717301804640,
    0,
    -275625983149367890968874316155355517354072904391608144227246879727926186952608175315804443508935236298286477230440566591200178603185416776688698935184109995515636942196025561570044230799882756084459203454143410413236200503252405189458781463180148828876752428307066272146280765899168561510066437730424299008327146071279449847892663533623774418822542730785338217996400226640775322826421151606381706453688992944082629336980229506498722050428062183740526731571108693104721517499298204597670198015543740079613622784000],
    [-880459935394743402169858252197407297872535172676390148412623863643073175025192778670655819039122139199964958070772582156488569802076073318109721742216436943859994377073976489235942589895172197739374569708643842473046643428781242005244151835867035844531688050586537926077238055740971010444572425013692627155706473040613192499393118762458685967076884161135115893254661105879392218947030026330161140251312345570890472667639630417265812305877588931380971214100247400154458142982727393569069598139285446527113021313280,
    0,
    -3141390268463911161277015642748215135571490351092608951606931363727427243162659289692639922575709200283639766581125666365613115301604505207435153384880646342543735445873699791454182862031528925964546518534464123571147512029889111896790112258743053336605525839459336389757284033075811944790660256435253309041948142252104292888856671289472664942208168114065277804237713786148219614243943846151983838022350844903890095484451705100659512166038446147085269232860537268775418901897637626646273110625214909017622048517120,
    0,
    -3760961719908210623409480049018787563560609677606534322301486818478977222398709372064001499911615409134909485616776843897566763185657287648643396117358215931574998012755034273457305549174393726464440377051418069554123613831744027534718930676301854901105222851971966298256755574893537674716916775604086964610727838602285246561495497533303800098063830844909952284404244085798956267505475121306323949576279923906655655261410516229979925605377895274531364790439675073557094177763276570894396461108005170799357980935680,
    0,
    -1239142902888598924264928812541144855978238653027850741389110909503099958472100164742723154671812417702539438071302355063907295768105564882416485464955139178062525133762668964006245374285729600999787717033907891965952203603709831275857636835117603128999394025025259816998943083635451459852513038337667311137559392700361907345277652487662270311711325461689348960333060599301473306523062550308680223107858158005531119553917622258640826878678898254892191115158275609563350551731277888496246700965580523563471864837120,
    0,
    641337957065506387439811211968248925802066185775416419761632499736388652727254521289277595283995286864915304737086066884876085824723078941905212593723968787724973872614848172722407400301467262232432471491801142811109603312162182491501828503033324321553217400960723332129434703811317377505945349464376171167804526600780715935470096278989629737320589960765627181869061443598004827229675010344481751680281803947796708076787635856349135924010049382373491280061561927215196537150360396950951529588422061836207125630720,
    0,
    380449473115062447402417366041414055918650339612951642043564090844865456938111824989983353580779356516220065701964662260341163906699788065003733583985101432896242062422206165489587497549159864992951760300111246321039061685235856124186495084725090041521226362886815314551668189888072096987629443619517199580877749910348477108715803760362078926099368530475185768780930637369349261544176259168660722982898537379671795186106816568403737057471909578438615623540452331842413670033271947630005281931926877090830036736000],
    [-110780911753271736480354253119499469901393423720742072236699865460213670673204631099495768706366580302669950133292810044281564866563074975718913232042925677627555687635948369969506437291170861334369435632345900216458645594776484345586150515559372993606830862175415793037788331230086425872120920447591174134741590463475201690232837454289494653807466440484018412880640568880693817425847049556208538783992591552721576759702076631368021333402689236572333737665559196131320292732364108129844847855715832716272439603200,
    0,
    -553904558766358682401771265597497349506967118603710361183499327301068353366023155497478843531832901513349750666464050221407824332815374878594566160214628388137778438179741849847532186455854306671847178161729501082293227973882421727930752577796864968034154310877078965188941656150432129360604602237955870673707952317376008451164187271447473269037332202420092064403202844403469087129235247781042693919962957763607883798510383156840106667013446182861668688327795980656601463661820540649224239278579163581362198016000,
    0,
    -1107809117532717364803542531194994699013934237207420722366998654602136706732046310994957687063665803026699501332928100442815648665630749757189132320429256776275556876359483699695064372911708613343694356323459002164586455947764843455861505155593729936068308621754157930377883312300864258721209204475911741347415904634752016902328374542894946538074664404840184128806405688806938174258470495562085387839925915527215767597020766313680213334026892365723337376655591961313202927323641081298448478557158327162724396032000,
    0,
    -1107809117532717364803542531194994699013934237207420722366998654602136706732046310994957687063665803026699501332928100442815648665630749757189132320429256776275556876359483699695064372911708613343694356323459002164586455947764843455861505155593729936068308621754157930377883312300864258721209204475911741347415904634752016902328374542894946538074664404840184128806405688806938174258470495562085387839925915527215767597020766313680213334026892365723337376655591961313202927323641081298448478557158327162724396032000,
    0,
    -553904558766358682401771265597497349506967118603710361183499327301068353366023155497478843531832901513349750666464050221407824332815374878594566160214628388137778438179741849847532186455854306671847178161729501082293227973882421727930752577796864968034154310877078965188941656150432129360604602237955870673707952317376008451164187271447473269037332202420092064403202844403469087129235247781042693919962957763607883798510383156840106667013446182861668688327795980656601463661820540649224239278579163581362198016000,
    0,
    -110780911753271736480354253119499469901393423720742072236699865460213670673204631099495768706366580302669950133292810044281564866563074975718913232042925677627555687635948369969506437291170861334369435632345900216458645594776484345586150515559372993606830862175415793037788331230086425872120920447591174134741590463475201690232837454289494653807466440484018412880640568880693817425847049556208538783992591552721576759702076631368021333402689236572333737665559196131320292732364108129844847855715832716272439603200]]

theorem Mu5Nmb_nyA2 : posChart (j2Z Mu5Nmb_nyN Mu5Nmb_nyT Mu5Nmb_nyD) [[], [], [-1, 0, -1]] [[], [-2]] 2 0 Mu5Nmb_nyA2_p ⟨2000, 0, 57⟩ ⟨1, 0, 100⟩ 12 10
    (.c (.c (.c (.c (.c .leaf .leaf) .leaf) .leaf) .leaf) (.c .leaf (.c .leaf .leaf))) = true := by decide +kernel

def Mu5Nmb_nyA3_p : List (List ℤ) :=
    [[11783698186527096661466867416518018725924204755270543747153895361031808849018308566956693626764862206719308772260858724360194244822836061106589723962215767097237939653906289958726322486631529227855614492519771832623068078389099126866476946089139306669915574944430340505418974009615516038797077868837737395074377926029466881176782940535639386868619318175907813795832272931336298070754759149178449794774330593063295287420841309297036160219165456523981009344220518946662667076282172861119171770735378647101646376960000000000],
    [-11783698186527096661443782844777362662000314043375026629120242115859100104471737225186789969453470985571520146633431714778383376667290783440838229595855845545981767893006319510787220849212868077008988399209333844633161326828931316704508532385318494408104840546662669764467965966374613387254768182364547984219909532696613237777040243689349592434905070051002045375361200240159417842952430277758816164998052317652178926884085084865521272491656730428045693549344886792436814163520767275569915947193048983537067166720000000000],
    [8837773639895322494501729467090905967101906347659137601801591250835508956427597632056821851733053441056792449999922343312668526259394687444093952679806578370587289347836237633598990402196790353520934118770897862296648086093659135811425277622177063555889009366974879684626371645886440840380800168657785253859980680067870806072767620572648212751085710755112840588975959841510724036582863617122894157511248858150112462323510440318236282057955237474040159398400515763183485023265078225207201324128754933684839888391680000000,
    0,
    -2945924546631774165342013773482216052666112777239044366245991944726029397275568620116327294366831657453414915961386601139327062772729161346916342223504730847974358698598970852071988705410576018747522659571161784852144771652208957296496111396932054666276800799679759099221335873748989046405744739881516806131434260648213120723735443939366849571810081252038422615781389163002377735455180744313215871992478083953468183258752331606799208589710980788730247241999456868808607535803707497647494211120089274067642237785600000000],
    [-4909874244386290273712706203216695859297588695081413553145866759659540535057763988609512196389988790668658738579599660331514520210410380950117241147908645651482084110876364131473541884095428971887518286220681683636188024480446552550021264257649633340593226070983900681876035058022374169489631159316079741905223336367793994464749473077146304926924274779970210106615607855969763543892675430902561274225504060883379024502423860478372056603173135906270552018990517827208531203993475888284855657606027816991507977132160000000,
    0,
    2945924546631774165253344867678062250817066092862717207564160300756989843401009846132738660298878097591677206705261171377048983812411656731301035194816728911307388403862657517270440184158857527594073184493323605099263823225276547105676784197740707080437598145133549910503486098530710584798938583154768904277055018778209392032711435656997266801847104094568504778155241654901292080144097898073674459893049609347553249913247755679131780390276036165198537623783455971239134117451458819339042742737961644031879443860352000000],
    [2209443409973830622732700187481629248272544472996788220312369680172034180495781098909602120470691971787570670108532663224860250136723501428785198565542663539046920416582493013281652324030353683070865251063339990474037855042563780117790156325565708049285480352922082721416113703965093265828134768276379810266682809527854430433336243842917897343494593531679098987583011833093514729549555149780402147171596190272689152455149050155695705045692772607937367832367092027553825334761623313560456008345162354610369002562394880000,
    0,
    -1472962273315887082407782964874788396809426956775229979516289630194655896163145966533498635940700599417372628959137055603911891139521904531401566866206486166835330514648932952418241975389624610151268078277116385467699563114935045140202528963687629389843677601686325866012184296242364739001371546677518439493098662225890692696609513960901219134804939613742336759003777111553869791998759428705002434307345380425825045878024653698335152280468276214098439740758034151423436343495008636530836120148492737666178043411697920000,
    0,
    245493712219314513781663996640291690943072132829089296154036633826459541338126510366588900131741483975162311524831076655980338596614421431132069714518874952926003105561520411846009246993958263419766897243022837853158047661698449977750272932302287748617394839384063363107698720388104513405163441647402148103122471700041999073889079137414804076622148181381203345899095898272003332612754491280435863191531009094605145760129187311682355987122206660425541112721630547396238660685652521686356857030140549777830654999539200000],
    [-834678621545669345867191526144012098356372684203686076864720016013193771293061087930833202872595949392240864184866166887416863072071299446213969172238837658205714131712770248789448484177299345316965609342981640658388954861801231111860862575522342282115400540926760197473240759201903526241497650095847808392600405676001543715376021581159519456463672601649483932412137878658013007417333458591224234326096045914472426624361064653775145919471060103031015035867203879115256971138580989648209274618093470086709493289065846400,
    0,
    490987424438629027250405527929750711904189948182971379346408279651091755097022293331638462160864789180723044764223896867412618297495257731179915165102332897748031145545067851535049175297808809317701885936460548638595124685095335071043988868956380781132435480094323553417422145190512394418973675231601688845711659968177669724770609960270114410277105775144880931715998773873167243470054228841066365779432183810199582436831842733090015368495508422331664995765815686828292886009436662564644390937303174847713252141508243200,
    0,
    -245493712219314513761877727315730138367312031577461428780813446177259894615913114321137262484010003532632887091194178168177670091835875193042462437600388943091213218541096496761343909315873101256028915049911083412266571608282686261408725768957634108457421436493984394375891521301551244636615847175784600316840659723513248864265993517974630383449306731388663505575366430008853742436679833891576913959272617485416004094330459451719567538397642091066357755718662975820572907533773392152166349856865055423769750919083510400],
    [271125798486582280887179683887383712541558883258496119760297626137969926345853152595716548605651055848094303776810123962949667563302621965463849547009780272862377968939266047206841983028900330238727028922588050753916987861942416586972986119468194945276106438414462359594878537697724364398348633271184626239003338179996495538439142988706100757461669113434992606025475536562710257098111287323105903835572324505168235256992127999560107326855213281215194595057856571732184083625296838035922664290743489401764814790272221920,
    0,
    -124884511193805816957421701264550526733234643484194852741461499718017954169516909572482732079238620310980668633359769385103565793914160453713685588990668068027995203004553323727705019671575024542785179293750549043801543358044801129106782426562274945956618389610525753948759147828069143419301104439298591444458249346334735887300238250730173215945767485816709848442583361425594470013336518393368301708989554237301972016232784272385339352025487235507994148798615934441161704770624578851072762477751913439466887914716868160,
    0,
    122369403842622027148526205806592004665890353676163316692000092509864703143975814531065113317181292891489986345151153661069519151048560493481683961530909597620134811588590348375412206529830565584108238400488255735270400742305977505912553262551430341244561505851653473579844813315124375388813425279272117492155382933965029476186047651539347627975349605938853855081530402597437941995705711629265026648255776384725614703608985296148538185075803072684132207573408386164692597761386774877687506402515603804480043325025629920,
    0,
    -7983891958216626985875497055740189519200414214197988138654996183512333220513150926803491659763728908658786555349567857340600247684186980482658938515482592728811348790724680639153036890806547814971145505322819974207603117590381670670990658798031665717143316319486840051515475558434750777608856554303225629892444984308459547128639180149070099796654058210778302212981379693168447789607318363554428753570926425123229672563207787301641647539504562705498315484146611731607689902642220697943446566206233285080264227802880000],
    [-65938497159178029466778954728996941866290162459087239743960078007736956214437221233811733200385917724551164185274207269509892618472357826198736536628550097035439917729582641450202338484058931712864685584091335657250169885914760273225919663673254681258696979474452468350067159033151008092683287204597006595994629557109849054018119085253556456939522613130400276068713140965200273774785457541714724632663315365512359421494498507735729190690735907769770720678923316453167104213971747330286659720955040606397633539066606720,
    0,
    25220815131727539242079603972640495307580104891960458392154655438498370104374993024826060200226536162251282731784739679451389241047000024777844759319773424505218912997246124713256071090382749160764545937327989621578102822628166928993694321561749440522777349291068993843230113365952533782857808934064678141488113930363747738336070373120993559100891283214507785078813559733712481317705584193457417459969167236211252681646096499704033600279898001608047875904750518610454993993031082706674072565977792346738224619613967360,
    0,
    -40525365920464072068205222998629302111972737697529791939124959304379322171994112826011719983745614015844317840778957205784269598689820778231567770380519569231737073374168584108049864495331636609425438991996724682706189874658490224641871521090124476827819858198634903614836593217336093424901498550884811352585511721240111111421430896278243476846596105772764487931343037715587721767563784988030736122404962784913769195979093523701234372655114962644309928969284981194616929664767450578276652117722640778098332532340552320,
    0,
    8109667124752883914383669090632368269017137803760773404322667970384305302629031051523767559533764327829827405777062308136487420474060971786520059985783166608689633263326320459244598272329678610791618186106036147121640996093205969259995609903049449576342874156801581577299640048189111699672929043763142606065879165086131231830286267732672309244976319533241907054073480735825046304256699880677127058551116189496334956015643688632367973832819516100133394129416724362135244456729154244853966556819544946039773902617273600],
    [18158883236366311178481649733204300585390905858082805723558013225906392978176014082402261545552295146686500797843773287038757144518137666312399283864792647091017882500951674925357848751574167794498895921336806647412046633777902878022959532921176703085990207014673138147356320695701798381261387398511002178171417247151035622111168296480570204627460096422236322137660618111573921868571630236006318989286278817595432365768499766832598909734414637977929126661990308625496121876425321239982249573930541660470554691683641840,
    0,
    -9874177440652228702128695804767692797830649430562280972179149789389935288004106795717260268973460300284169659444683496972756494915248077904010593457489590457958796071449715365750648404705315310415883723016128914205746644659683248110785639308130248973931872482818856842879422995267686825781774079349019246514010781043726159516888580959742882854016240468007328065574612931051314484360449583904895824382583794138829871013424433883451699081183352448087220205174738641774752331186083992175837174697423861822826288640806960,
    0,
    6066969142943274525779409698610012929405529469567948848930414959105048407373468643955836699777855148807438328605747857734126179681554386778558180136182634242417676654412178414115428363711463344860761046380931930307912304860378063776160846712673310003756935624833053107490994446364037579693996746982560457491461729507654681992495265886073958891341422713152090221921190694079892065561164580815215939262438984681192291032659558026846929849450489640814871895227092159251155782629195652458939495635938252711469262473399760,
    0,
    -3719958929007646017550388545735726367632471319176322974046064245612288373682681458235078218136791152777876980694466627575698301859394944850505728698198357849331476140810343709987275393273418341591472532990327031429590365054586630935460645010711286945327068409935449948453795603489627022926886494487098579935807291269251437437383138202694024933316860009026833330108825792324705106341399582127884548596855495298518919485283839465207611485105537887972550109306001772335771075729095290056926702072939453183389477085031440,
    0,
    96116935362948581032275475728389256117974521192919963404906306773051045108969360076232602450057016484602977067567562301129464900411020875279075855553583545200541225597852566523470272245097347129807486528116075247585026889612882815453092479678184280160951322875777976233925309533780076990141147148761551620576632493633755645033860212510889073608800328771803190964515270502691412229430243903714663744537858061203996057681427717209862577318937314067241056789847012404562216982963310266115726454629084969502001102720000],
    [-5258857679965918317258398773626985416880069238842058719648398316657953706439844344130187427848194841225464980836265896944067070967759875468150759298670350262512436606720986672729793822375538518119272346672318513365674546922329833574534541882015867115247916816166814097367669415667857881268787115032455028138450974390923618049467989991598311745573524360876619986274170997873819710425413263178022050363652239755495371227378298099204566669110539364097693572073286204633307308350399533233858070240935679718470640146218112,
    0,
    2498297827528063802209292394339061587477659396780663338798078412391365967383460213944037043878128142875303692731206626448454388777384228870278967676908120191290930672210060654595852213863654801011234446793241092149916142740539063258627206055295278074676370970455926921556780278379928195077028220503928107722061452339923891183645281469870084704933424063785233160040798364876926366575012586528783956401837226454122959731604083338716527690635718910915901050378091565463748307357016243686973533534613496269753469073438816,
    0,
    1444393396464763619344746887189877679911366496340754542424981043242051716533398073031437127563881297713875396213609887361027067702707674673431295578050936082837007295788251224053808225943102322942157874868062834667297766743676892732404910287919141862440832315574419499613579162976355170211814587011573475352372133012080304454599550096999555567269749365431662194897159759482815729550693408982937410611326654939703075858772686681327598899268232977775220197918155541904453617560464688983179639224734669139378814648058368,
    0,
    1371354046519052648850645864972618381934760814592148455800304451116572128033009987416746387402715136434305510230212383721592830273186765766021181596529157525292740632181421626587621463942397396440503417338102497160127999940308015823667877825993718741694735098950896278435058588278099029148447962869442957688914520581312919101534438344788255490409008126886792512813466080474436203026422354545705037672566820144007871652349233535902030735466380701552114246190297994349898274052671890440843444350125218618578048097929440,
    0,
    -103579843991675870574519161053659493607715172039792073912216752579670799733344666790251757066649356956632179451495272947486213665501272397731619749109599559638889351444479243748623366910228969033871393973593807950024460298886661822949214992079718834687805326138697265172954528339314407775599696960344867784410155702149107159339299541619014770820335215301920096707728041457739395634140043041006682419260623702803856621213518542190581776751674421036897839384935014689647416348990431863755223561974802350910770303272000],
    [1058976131495894262180293342343304903925555157278078218463442382516286615580937404244096860344918775724764835629777992078648030214002408637446787424742305986287271495524405970304096084521327683111903300968726518815802059588245160460584455349936220335183439368416862516766137032857882757252462129929285759426432784966084364295386444005443586332155958234940758621297571155129064153109324876444050212889993798089064515142481895382877690891543695739091130513757401927353204945451586817689774708945536200604437533618418672,
    0,
    1160421024099527736139975199576866045144271239554147997863851203676690197196620010585445169702876321867739166106489129160479388195953976000866531243868708091551139907249825427156627133598443748775952657233382308142150121971956306084568952031860379408896517823998501414412800551876489841034663517606379799210083499153063416238286285841972403064962418048285001026994496907349195000883798938435478358571431158851975210380938281930565363579091885522734407709633479813759331201929463675129101461543542948578720076867227664,
    0,
    -196415813750525265649647860554129416285350155512449984629255351624246897528115689742564043726432237967476131932382951950571446484605266478146278206155190336097005840308858307620894280159203756380475097227452569569776654896132469567789253119929175938316242984081945756922558248902813116135458670917542797736139642762163570018987152697087589350773018236765504747346664277186201055694167122964367846478368792924856790829792457233268798346724283019212376968375835101166915803584737726934008852276814274187226616379112688,
    0,
    -254318136178827580539503384535615576031146055318170069457401958867530298553485421425360289802776025576857527540102140527973584294009826376170797189308790127657384997946144609526028138681045217242122124208642925388852107613454828725997048889495552083202320924552038397660489223169896635634602654876026737879787247983524193278195368482175780282602357942825550233968467063389248089004553274565412607992310371633902098526354357506332297420592594073792823352935419092139876483214907223110840456111071490054224096348633680,
    0,
    45058082129718094102643936391826341977878125411987986671798190890245117226857723709904786883552442452268561063297100698095459165793706490475799123358707393946672128073800802255026710919187490658627313909169895112271898947142667434296404918985568424983586613339094178567291629316147558042890858220692689999085144971781362201820000356589821686234872436673135424262916145151878358202722315749532488135635437485997752029360760052143425945506201807781008031343817690548664175207399566423665177534277792526455742191288000,
    0,
    1515511954386935032817603139751360504957942941638292099535976973124936636544849051352723601938683918675626194305152193666238993246699025080574287385905080243182873985667647307629520363912885856224984625704461604999289280753880968519704006627785496156586098227547921658559084564623993759833454502082590359082036006162933518128374305149195885257752329388938505187793179134794543738634405359149103968139655432132364487466273777519252331826323078718177220027323795115498598359692205161170028770528260419170678912000000],
    [-249945209159156751905552453964709664868373965751303995550435470935339695570143756625954952172079836730567157906028448577205260516114778381710632626702289101791324218884091954564821745154920639103737805511687819621042195723151518074652464172432998109089484855031368756398622771087153932209086552170007430939446383367573744306621238174453794482473599306577039606624366981330900737178334417134488323294409227953628793617160923359382791260385648553777591158695829803479798885883021491613481278088864809054244255154462688,
    0,
    -538883305801612574416579271970849448873251790475419100131355905768716448542434337349420983588951994754695477363234622969273079559745548284493607138098434820141970877900042179265629280272530923441895200099313530116575962196036191539378575550298035619371111538116347770372605990621707569463866723372280051627461199555663669170530787677050275925214495289901892242355796426095030330629214478811372978904098514259065205933585831464585419499946450437661666097875620427144752825346021093975471104621271641935410284259919104,
    0,
    -352114359317509561644884397366544860553151997289267294049881751472034242368040306546600934474216735064171017844052154864776619565582906232688352198055019941253569077071983086743049254018528699987105436550219210238886041999459877485666918006198026435333617339427848833091398903624458803752332218765408746605960951984185597344217509399087738681125344994852479963984944175785624390653409714392713487737481019174407553682591190878243299224373754630051429528835484357430522937279874166716138348930306839776452404028254144,
    0,
    -87771759639773244672466858994547790592065723474336690977080656972299905854524427536008661953313796364980325560504216484278376832234243102737384210475523858035553843845996690873999426385102955509495771883435947334455292155341552127160328951530967955952336247273190815092515040951000174347115013191009932500917263387458522742934609737367040442299593577569963009062015279578085630951242664412614094650414615758117800233290587646573931784172538144994194245143042067690888554579976773549730127195804321943039270508361728,
    0,
    -25007618737684342548835343949310470675812788226027922577762327926664400923946501700123693979386182903393717511648217365292910626128068736830977245668281663921662873655753065757259486030140309306567006955029286313345328480690647581571885223495008537940842353571382430408143478079684554247267502724876676996564552207146208602233651113402996129713136797304857062470548829524915726567442015220138025232734091261129795067346311719845687593081371381592808501802963754270225169289307964785523235641450647027141190199324000,
    0,
    -412121772964837010226064315167756632021237316843421069642987593021984465171799987249935083416963578456090337989981353723334315845961963998970721851632028789031447865789236925501778545955769446019277034186838722242311851924299475352362900297029507040496762641061434433044121218589546397704537097002870413593424615783358339607001272527212925797992231262521381662048280968324892818729003523352762710111208371983136200222006846312426793721785982765968846315615420344905612526205755589941630843546331979388294613760000],
    [24448503784785002689981956947315291798050949805470669610938789957873109286001041795899021757885824768102327407309586100992936659642132562059689645690496169951564099519469338370021468951898322385278363946100202172963102070347963612557110600577960055817794580295765869273710410540920624679792631771442835411078550213218331045316475188386911327627894131552655854070104667855973285822948619833624718482379206620537031464748325220003429367700579947404856318461165113528145046812709029820754895332080321092935658196380384,
    0,
    81349302200079316677543133049096252035602808888031947332424426494778426959118887571922114681157873183646924447459204012660742042467547812212676447647033384700252178387675074063668129961641263583084876693917699757707412985982695134751754714392646825526536104442927197752857193761953835283988553896647102509835454352630663020067979409024568905085305105285631497495191598835454453513732235179021967132578642239581241824175135866738571404283572186371660047568407167900479229567444921059920437590249323163837208395777792,
    0,
    97003358103928369424624035043617595558420697804486366015939098508689772333622446430068287198812666509251457551540797337743133844910074364790520817220988033793395343434416699160636623457449197884334080461529288346779824107787818115514012274551540229633186435374666647624814281215488773495562784509388591772969141209294330053230217346545170259794077976465509447330708631529880716121023121574531950870965115545372851916040738287962297289452610782191578254509913050913341140178925629837348952745875325078374986904667072,
    0,
    47399298959159235108432876309428192442154738139974110162658636136129848106164431817662391088349008106896100042963028947194315876346261841692400222685725492694313955171893036800115780121483236007276620682083688223726015110946919663602614543078340293918288482424095449094403786483949555580683347862711514370680199644282322492447527469357210625149344613209297897722022980136648285510162151985711234641215559404001419450554651863489757119662198702393337662730947280618598511259197661360073186016933247181458292303138304,
    0,
    6943213482925615203256394947812147361203869391263563552503732935938540617931865653313270515462385580113888184592551426837515089621829027565495555844139573051630095993889580522886864957692320767498687024749299573126699490721347456884658117182846921954189175017070399957241451664645008411669398926631486406402042005112651678893944593242629453118205060401314173082163121745605807597440780795790892787954308027524093125946006230029761149597954066674299159899958512458365286187852968344006787496836206318462166493484640,
    0,
    -353525787599564468113622419779409760082030026785458315701441228406852827727965510303926297346004433075351346979298094281472324639773699489370651577135100597976594611792492810238952716084658553250365943622597888563802428072485613398588265158639912039654396179519729991494836824848984277647086551895703290065920569287672735074869750207068489694472550075449920734238157840642929482481864960785639632495571450148684767994717992232840717194626092494263977428317771619226267647154954417882988032390717855522689104384000],
    [-895538906180565712137126029850586427485016964693749181852589770557121999418283881925874614787965634124021005934170712201182550398394892242553295040757767223821483646197324758508318917919273338962884221633972820655150063730997478828243534465623943238261093641888699115302701304577263515283446973404389023252143694267506999262880825433956478868559237685845890492536335081908248019074792778438828014950514963912669924630847411676376077560055528078546157691020786410089649935894048309599378806261700163822751728513280,
    0,
    -3197493524280692155325415408599559626637807254341736794774457335594865440215556643575078080294202016388417921234069341327310296235539192482304237065770415767863771405629798587539849429706071735809369102218915272182087315220339334315864522698750961072964469107681638558656665460636969749244705874503518847652118353867036372934193717465166756292816689393969781651840943366039139742861066923920996848178856870596547478625476457548586366815629273377870834257139829921419185634861176290559414669008226502734605344517120,
    0,
    -3834585035317111499930401335892374231701059370429455360571931636808241766679387755041566173297151724313461625594570243297415680958207847503683997855503990833240249160545946765076208539631553553608634192535932882176848623571382548981022746138764411909246940011839563081599648796775243844144353763970185158087036472793075499107966615521102236485674380717420221682000422645074078780696339911295707243210277843259490668193431713430584691661961812726021760118351455584780243180504222066243870613415904372710904092935680,
    0,
    -1274183022072838689209971854585629210126504232175437131594948602426752652927662222932976186005899415850087408721001803940210769445337310042759521579467150130752955509832296355072718219850963635598530180634035219989522616702086429330316446880026901672564941808315849045885966672276548189799295778933332620869836237852078252347545796111870960385715382646900880060318958558069878075670545974749420790062841945325886379135910511763996649692665078696301851722423251326722115091286091551368911888815355739952597496837120,
    0,
    643109495585717060755228813360557905724025453039290548691017215977368230412031654587806900642676446306643404076283317708497071033766613709082477348284845285867169070440677027465386049964813141205786915633931221098901695083604845160194926189355304282058528197603932494913857726111073732272881103051759958173681998544459497206437511648680157857121807711809230780681252764467161314677623980898432831542296976303858954960805344951295696138315827666709028336752476465668006498966019481753023417892596446402854549630720,
    0,
    384662100441570693223088710802786083302260604433259932635901746633622557457578884128420378857660520107666102502613507477419905358040376487908943097260653127422163179159500446493426241971021620042167784316976010438512939703650580997109615163744811880079905459873157902554139757672084311889082019114037245356456423202991624117329584270659159181420261349413780318304396961593852333438104189834315211623202985054132219897913189156917943424592838936313796506943315718939414108715016947838100556038574152556401569536000],
    [-110837993115500003191614935506261018653923820655567563178800200581550271824643495198452971470113942717420797515131394492710143499611290817455324746445734786866904810388825705922072743259944766166238803302365560951308422048631535341264290515229104160768786583931088968863911526825943405423909944574035618474753246113198360792565901388995813504015381065792084146529616166873314319471374824959815586978014873719312571085074317575755080309128968825312769961211761229750224038575073045813620411102818945866326839603200,
    0,
    -554189965577500015958074677531305093269619103277837815894001002907751359123217475992264857350569713587103987575656972463550717498056454087276623732228673934334524051944128529610363716299723830831194016511827804756542110243157676706321452576145520803843932919655444844319557634129717027119549722870178092373766230565991803962829506944979067520076905328960420732648080834366571597356874124799077934890074368596562855425371587878775401545644844126563849806058806148751120192875365229068102055514094729331634198016000,
    0,
    -1108379931155000031916149355062610186539238206555675631788002005815502718246434951984529714701139427174207975151313944927101434996112908174553247464457347868669048103888257059220727432599447661662388033023655609513084220486315353412642905152291041607687865839310889688639115268259434054239099445740356184747532461131983607925659013889958135040153810657920841465296161668733143194713748249598155869780148737193125710850743175757550803091289688253127699612117612297502240385750730458136204111028189458663268396032000,
    0,
    -1108379931155000031916149355062610186539238206555675631788002005815502718246434951984529714701139427174207975151313944927101434996112908174553247464457347868669048103888257059220727432599447661662388033023655609513084220486315353412642905152291041607687865839310889688639115268259434054239099445740356184747532461131983607925659013889958135040153810657920841465296161668733143194713748249598155869780148737193125710850743175757550803091289688253127699612117612297502240385750730458136204111028189458663268396032000,
    0,
    -554189965577500015958074677531305093269619103277837815894001002907751359123217475992264857350569713587103987575656972463550717498056454087276623732228673934334524051944128529610363716299723830831194016511827804756542110243157676706321452576145520803843932919655444844319557634129717027119549722870178092373766230565991803962829506944979067520076905328960420732648080834366571597356874124799077934890074368596562855425371587878775401545644844126563849806058806148751120192875365229068102055514094729331634198016000,
    0,
    -110837993115500003191614935506261018653923820655567563178800200581550271824643495198452971470113942717420797515131394492710143499611290817455324746445734786866904810388825705922072743259944766166238803302365560951308422048631535341264290515229104160768786583931088968863911526825943405423909944574035618474753246113198360792565901388995813504015381065792084146529616166873314319471374824959815586978014873719312571085074317575755080309128968825312769961211761229750224038575073045813620411102818945866326839603200]]

theorem Mu5Nmb_nyA3 : posChart (j3Z Mu5Nmb_nyN Mu5Nmb_nyT Mu5Nmb_nyD) [[], [], [-1, 0, -1]] [[], [-2]] 0 0 Mu5Nmb_nyA3_p ⟨2000, 0, 57⟩ ⟨1, 0, 100⟩ 14 10
    (.r .leaf (.c .leaf (.r .leaf (.c .leaf (.r .leaf (.c .leaf (.r .leaf (.c .leaf (.r .leaf .leaf))))))))) = true := by decide +kernel

def Mu5Nmb_nyB1_p : List (List ℤ) :=
    [[0, 0,
    -9465968856062306416982866802356145517034292119372814421182843090185098998268044469732560348485663777634390697046767256646607587729615269260541637326304512812408253446320500252362220115585838153072780027511935939815510849698784467874704668492954170947827808922332150203973652854810094961771561262970094360262308491485274268458093130356044364029455448518738362641463412563244084628517497729788274231134469804790554766601600909140588072668382414650298002538242160622492387839086485908312276947200000000,
    0,
    752733045748968807158791611776279489103108635619746590257724890051476143446903672833639435683277016688522266790939834919186314104187069600943446191103419674408043966497834271967509365864235675621984785652833688726949584324318539501514353725229962220325102351409787362144883732139035116274591149430104394265105557705470053300502232345159790393958271185192072503024147074675062988307309838001350822208821418483603596565950612287048892339232171634893604821888087974269656454103923977681513370808320000,
    0,
    -99615891213595070036867256208203033487959380016134664720833553210937297473556703367512936134225847859255562921063970763014947827156729650425413245927358218351855469645861616439365644541276898546573684705431817342631495443255422058516001055292352400404592548946696675177760049348592409823460615785105221400257128588810439678619099552516803707967579081115860490392834587142624837460347035226900015631453664537234182715762062573769440119306627015538292995587381636714420869018620164745957899634405410054745554469120000,
    0,
    47124284757484698162187634238439521140662828096555314590174492763165215392570642871577355851802668509079847782574036351307942887063544091865101351240272098039768757153660498133835812668729080248274276989800661683420048525743810089803647402040817329311382495282313868519939344371717738594129405010794401627742355714157587669248091289154661095710397938774457244809356074923631168050168641068883930924367522287301471383253202577446329179630556633237711289609525086113472904477276590054613572985845859786408996977280000,
    0,
    -2110143036272951465473659547466492996340022388154884273012646400988779057453003162205376498771899698843055295547656084237895571165426530028148822974562378123643695288219758568055346079448360782653498915286656073918844380927724185423514187882235602072263547201664837630637589191520673945927254967992558101658741478722693267217887820129082044017100443015084477413388569442442485258713691267195613260570576456604490161862989720011445969964716505751285792749421995561774547793859590272906843861484452614049488512000000],
    [5891849093263548330721891422388681331000157021687513314560121057929550052235868612593394984726735492785760073316715857389191688333645391720419114797927922772990883946503159755393610424606434038504494199604666922316580663414465658352254266192659247204052420273331334882233982983187306693627384091182273992109954766348306618888520121844674796217452535025501022687680600120079708921476215138879408082499026158826089463442042542432760636245828365214022846774672443396218407081760383637784957973596524491768533583360000000000,
    0,
    -146204528767390872937530655819085857776132250933302627487609141544725686886953411482062682607466967632025043277190347266774230734494450803333488196126927697926347703628507967263479494953904346656032804394404761914348218471481713762448072801734945107270779609310926556551151178009971694639600641799594205166792834764496750610561578046390344488482952201886508318567293403857323476258558936910829044258841031348936453864179740799752967981841731406620555488842131194312684429462875296046879456158016000000,
    0,
    7383124950536891907246578333671277542154675997151161935672783154148902735341878990058694978932900115109963574082491275579531047252159526345174397015248593522904537939389966986233199865088631178858755883849354155653163027319788275588492595294190400395611887483339115702330296480931420112932294618565457402861133823669245054151002025513054100483717258074544766715594727687372976662908825060632725059236655275397906080585593877095388176832062715480796916004350142279556494472821193641911741758712310400,
    0,
    -68390523931174106268408882363122485079609772684395264877352090721469631547404091541481313774621899607144327549839918574767733726857540103958232285031069541389896277977174057176191453903281571376462075777847336322146625631085336162558291345881961346786273519107163137070845723306691727283641089661918910438270169645097501810978865785468070532819852680686882558902003098218289554012486105018113509799002995733910694982961794997762167325096368133507688060692507992206426741501956874767780448986945096281364729146233600,
    0,
    1855677170562421757432134409838730106361904171214352238601441244199609229379743852997421259323489076832386524725564357000773739687047228237918247529000080259397678415853810356294282987811794332016995908116890948332253589981483435644282413009628444481636718587621461117875038617415016567527509741701183671010472732248730287309543703047247819691721992021203419952037360630354847472565973836742437010957955969443020913512612971541696970715385759476748030119401874973910684481207203306195475461236632268923795241672000,
    0,
    675266861364496129098362128152537054119036006868559034155066854466907492793094228956723351900696410326014984609219351586562018599193866019364846501237488082391679393983198332763548771367424914766965510768454112323856203444817490539682248549312282817153453353560116051461045899532995462220657870642826901351301817107503189909567858404142081746937772313618359894040227532337997332603734880649859997146192196868180177902036581415788051505601039001320282711033568155174486694104120375838689117876689791698330581760000],
    [-5891849093263548329931337589142623316300992429251447129540825889900141991272765969176759672048210593724836243329140136003632185213108691652151755039385269878541365660543908755647897807250003686386590609286615661727469208900445982493776205359253343578957609751820273562871681568740047093597246107124461124957479031621012057758513840747492805429905989133931675966408129950775289248660485593281299099380380968781578597022265855767308300090434710040525791392868368730646344282072635022049840155463508589784553340035840000000,
    0,
    116304561307339063197771345947240499801634283642960685292868214070659813302877229996973911715158554527742890697104498656493941232989820355196871190925816021310948564089980424604137021274058840846320317827256252468343180525870946969913409320663004896507000928642970863344067764641583357309436190718597130898541433641508407284529200093625351945592544807560440420613585833660257739556999110204653836041600204978129159696307099483115222562432365241571785876896316177447326929969596083938359275822940800000,
    0,
    188726133517614852865615747122275802329063107575819403311683694812539240286196764971999585192006275441720600568364449891365785450425160420790291034776506160943844854970091621027782898570424443155327616779464920775618394680391299307984675310945154764296289748887572993501090459728945285169997308481029330800369020297299444059498967010059230525124094288832698245537868463355618769953960416795168187484560596734807837370140236265525030837338692558139277880830492130018108500773459190912109550227707871059214743186658080,
    0,
    122456922705385574780702984201544833688148790604724194318033695291920908464738578137082985730929318872797658662748196512535244893806366882115831162242791172403326471494696067073125038336993846091265100881089846451626430498572108745809773062293364979279316229775939691612903569852033476108038541927533988072835291823271244037072825595138037830835879039411263318775655219123318773771283304227495658820539185980651667387169431562023236163087890597251637018522053908705085896638198021035387546186912539388842308109671440,
    0,
    -15538244195420052032993458566869796075108543765397148457287952980548838882518397348474455430900113079023813283014756723874908881610635891358777985129637191379258809303456786895070919637143638654341072524445244846955096919105435370196843914062605504577833855954126530103345055823667508885251775087246180994385304874984621257700096550544574563543210719869214648064874508456808679466282113573305222597653370136842592140268160346929454522237357236421958715755293383343293582210909348375461269587261000911685389639128000,
    0,
    314575885374466179541248367967382638718051465588533229964344054067389507340286842809865370427469834686818912104869330436336251621479558133029675256159605296746115776994259185904498473442270654667412573538370649488519314287869009294023523310910030434265574303913398131820558795374076419578576494813063794537123857679476092461381206870346132056647546403117629476117279033641852402654143056196010669474630221546383698665849110869669719622527077339002252079944440156165494582327126311240329115203130797801151363584000],
    [3927899395509032219336821006679988182119796738152979522578881279274962561741777775826399741457480032648105290034963448222256708734220671573934907436868236478061248061242583126445643330498635282477316240403098297711693119458456787913500805756213456448067339306323780188918980968965615820593133693225452628451538535773407488081937619602575035253824111390879012953902472553549019493451093260630794390800717898204637092948994776729815464632544845235981576839545255492603277171880336159499264770709119434464814254338240000000,
    0,
    -7045847754943043501783403676466126371871240984359746043446997702447481025866883245363818191377726936069992108311043083558503532363733256923848242684014938289821477784255502362175929965029193649484688955731986081156524371101794799378334886703706376476379228855683895662108372254560054780968907538747778645449676233116957410920645402084665883905195695431424348970383859216634087939361986795110427182610208871754611397313801612733745314206600797476437976162005879903169433189399800307005680850709011200,
    0,
    -525999597356293434008503093098645425898670884146346264580381047651045958357330621395268341688212501151777656396405084113886127775542801406510770989738574469559193008384346706054227195497948829153403796101857257530551306993268197926127905919145644562360042602550428535477137534995446505482723853289695378069114984641890515406389082436289239972901472737130867419472370218258842453297717554189036003902310520842147493855506451522259231791038931222491809808347897821784258315547388872202720527870712815225507672794167680,
    0,
    -486784347384813339787717793770613793752469659074826670576077979405621981442061966914189673725965831760374024962790581838277755147482517549006418029747777405207848823083470515747882262304524311305546168952006911924891359427947159268427706098996876033824198517895054368385560903596073711656079571574514704306502454182837423961915976477036303932959321524966095812142353879348239754691003281688766232988194782454752381653250284618834279694170161840275901769877474702187110699920493210003435357711775053229939923080969440,
    0,
    20810243605163375901806361319215903170498565408054069417277749037537536169771178032814166957167367592063701471896302597991989350446049485908624250398995442609849759340829414581695812470268844729074777750590332957663358127960268560549691473681226700558270320521737234876578136419493875986449798974156227570117297649534718321122651966203677407078235637919287947292667524280760955091447104699902504805058876808045434754367917554184936179024155085591348582365038213542927779710385603368607820046507438619859718116764000,
    0,
    -382555786778316570312753038422100069610455472023105787339732918739244007197845354559201866219219938311943084102289084868880534632370082276456338340622877280159202620790853305991506869760090742517559772308543628379776000694443218560648055124234950960800565911379986608552903973780078204438355731366777222468667086556670050613022694015510619053759814939944483043542663799481600797491140224501487967303050761216902007542010002862660840241032374257376206065241884025390913889374144447734052918985250514823615803136000],
    [-1963949697754516109345521746236764573621909226965089527678816797089233870295916298724236491112136701265912533016775120231321871506116354874084662654248379043808199273661760587136411253083485687988780601383545001726749399867995218838255248169231184163461381430058461040981322534006220183135411997391205876738290372157726534597641090386814023046232142802121127391044355885084445578969972848297337545766544489529907186827260062023211050556900478870402500672830245293249857897396714146415767219246405661066511088034683520000,
    0,
    1068827542074280161957787611660094437945968099242907447506486963206892806747497399607138885549043741230108879719780711328084901238937654550828638739107670323672880420964974653637738333719922173570871301853826423405376979007092885724750666137838033065234850091378328485713758422568845402551742231789363790630593838994559159632402647380175226543604723461510664371610508220622711573565470145068417796870319426881761799017334918722937611134874473605640466528399082432349119024041293680573648363526829879342487730161860160,
    0,
    3139346540109759494550147266106332745135482143534912318673976998188191232872032749431474871726569529412755906990698774837779791847037028344504919932908557607023722236577663406847000193402851582042092013934527305520434164347209417359443623687959395565503628849944165858830699003318777371582397994549395140792473274703682639745367654156368752052168912116480106724191983064372290120999239720232661978072061019014583395654896335207105677131808166426527681908266115484765774337316223731773365788687022164758060019593313840,
    0,
    128926816757740756500652226696113864087065349418177746175338053815436097211633524182300472294911494490325766532277212805343561128401272963942811601034640117983509413736833823533336702852892382060827042747885724883595803319647143609833692856588993183374174280808178677515391694647822396485016921593861273411764549057647732744687017088960656105305448950566748300394392431798909394259142909233506395017534594964464144135262327527139350061392994247982411281617039083374287373307875585722799858886766869737535391422105680,
    0,
    -6701436705626124323811776064229909883026038422028598742197551967855368405245489487424815001451266492208634006704105060185065142730127880767440935982339458323218773617003414115762386777606692886189775233028809393556023559726891908303631616850254820232577394136712304890543056574929326715331122090945284778992407874504249122329517173135428311053105199784017157931271766640661835663673020609799346184143058425157265612688834286647494968756626948455204785031318148055048117006725997497640377288964875374606941897644640,
    0,
    110809452434385869835984594312880244277658622188154817707750033020881971248924063148974370088240261510045373824212102268495854183087182896587118989244330232247230249012387037945789590275557813750304119467355730583883533821704009843425220515394238577187808723053252380950849929028014915648015432510813396304747418288336781241399369421642654078911423753138051279705128367877004068448610937258012062881003732636017073922388197103561550821265829030942551849438660212940772165653718576971732629479267389291299639603200],
    [785579879101806443425308417989266538904907349971922038581944953939261802523878466935208079997526608817375884849831493910323620048307681826080138807854886966253456608200203766730194768671845158596939075334558811526281880738008285985347101208296595510885801246759637295761286096507960571284104917516125573883675160526532995103895502472915929660023395126493794200462838587764047880976055173757926692430129611749300854335914819272139846935282709818385385402637177757924826490174539499999784080043909856230178825565407478400,
    0,
    -351651111222888112656922158222721383361472470259153309663217983672033590215226430618008457482750647293854481646384061910245309801233994158682330637609905307414760410226498400485646713164523527598611589421236781872798632220215918810378976103727289263780402452635087165268101072747766446945318578148178256563129963824080297582978543063336525964419581186915501743777434793180458515264499235437159300325260047706579417413096655128581781214080976628892105186150160701290770245471828861168440477569289720785025571995880960,
    0,
    -2835092430897890758924806529368287241852893757687196687228936258593813148976627420175260640757246316181461404345590739294914946981239649507328891491071305135658331233895782140289541528450961562773479954750257579237078953854384934155889210601773335936693857029903292171180257687167468625589975117531512185230240097144423352799857880219092501404848390327313902816724404495315586432095938392531696804937903139499362276968388354679643904954399448308510750190685723384380802758900472370420523058300258904574457329523539968,
    0,
    95697553038362450963212369484409951872273606669114255243655522691613272807778609232512938933219492757165419042215768533704652183045178784110136000491494670893644153062450212002742760794705362129824655062475839992166295104941379489330997130196886480539095781234985177225561126718545286634974921713471792010032140452018574749178114237903617561172751815798551964592916210176646915692515550331701604367948399448272280202022582312416149591047972208433732526533397741833433169777197596880248405505875757187215590536585728,
    0,
    -642223726325611724097520012664403415763045819407353484226324857856878441569643087938542247963335866585779354406684692296686578429244846325493844971004407036796071471527762600093896725133140201719109693562866181955005649197883513825848377346194314301805872799282327913521646214961195554889413226258068064670743262572620106570953803963834893797221198836287428981275157104032583070953649495621457291611289390125827831518796490403822416031162938524541259808407019196441601518058189939351987473740509254119530837630720],
    [-262401317223270305750446239398803601127813201704875185286733137559499042170941769881766316466694537361682739939104955142557972210013409182091326083565016459675282486065218178558385533269948013258426826060705908068311140451058342281973406243918365423196680857304520154770464079286185009284477725464506051164324740032193910948632749454744746658279207081609105200245605534969331090482229255161600480879439985610549806045767120057814170115569774922024446737805032543369206448375725991906397608954943903367167477696402717920,
    0,
    5401756411624740536209896138753628021417161577099004100708154627192962079858195518235899458050968808519408792176502969869241570454597067042669332618053681252156219269293678558684465680171206641788226426175446039887997512441175224191138197110841442956245583478467237097802506434789613575158253339380902140753974621989864435302852852980767025593715922281699556086477288766376447989058712500340292046019494213040496740672041048167060242082892186403920347234460385173774711557346337607312083949575630349172954153188723760,
    0,
    321913569789991126450825427948973643911655785178971104490408723273231831284027774165669183921411242193206551468812809000975954273936833884431121354737385262278360800726783207272695737979587912833541891387678594264851292161248268079782859512166410846052681555040603822588434292953952623691816282762239204770739333268668950578883769363837650831709256271903917329432730032404076055763945312839402613440830328863879479781680623914663883662866795957366558956328280913669742607866493812653344525205700706168326575571407088,
    0,
    -47057087801467050951732929701816024009128600385683267328783151121025784221104497803346463578646699169650098521948696510169349368314276003928597620322520760003058609552023764118987949760400250066405313267613502538871284855625653309034272369643273675227422072088238125721839858266521546202609460474562721275011353838639131174749685761699713254274686608862539564254526030481951169004210275887705681512763125557996557134055533888178368154369563255456275818832725414853481945280226601597062415363889282525600136463778304,
    0,
    554047262171929349179922971564401221388293110940774088538750165104409856244620315744871850441201307550226869121060511342479270915435914482935594946221651161236151245061935189728947951377789068751520597336778652919417669108520049217126102576971192885939043615266261904754249645140074578240077162554066981523737091441683906206996847108213270394557118765690256398525641839385020342243054686290060314405018663180085369611940985517807754106329145154712759247193301064703860828268592884858663147396336946456498198016000],
    [70003130630263493560806897447962355334887660067371929429820991333757019633312379167322419042376756069489074929007664335069892523589071067641204771224410728311297305002342509613768825199481641777101474480663816193663657838789278641013931196583625418044611897191287151925854943571255361831311526052134417559134782038072632283815384984780217544541655199694985711183264541902022855966176495515673765830572328265468515509027114111282597851981145780521222976402692999438474197492823320566312175082051987336796099668471253120,
    0,
    -1531842175478739682020085162075512613920774364659655102009362592933453463840931270293833398050548027432896669147180169034746884753707428570795948304672235506440076402202886899816222050571199357282108092713387107128695918294559980084624643163349826289657758745236183799093833043091826100710399109528115021751122416062326039585061860715544004247035145906390390746693772186706249142640320268487396906145266674943776069631262017752218680955245295021762624085526623897628398049640585994237532298713021592863868526356382816,
    0,
    363551087934720543281688748936336430657478533876366697986082828297008984716125341278138638076459446600828277102600716344498328687090566960614032606097665803077854384017054548265507927844571512473608703940377781163338847975614335685071963619432051079770334729662385376906587306850082731356305769606456139409556327305028532500041668129951602057614314916975242854586668421785017147006099540734744436846816213389368167433681979293041687545441750439828313626626010114490587920424684569092277755661769487511070463117086144,
    0,
    1256662962480718806737450333563387033052371442601643936492029755964926305699881193837849670338855916776313423396152079502059032606721437462588003522211144654407740321797482659539481797068346618299158948833971555977737410152898130303087041857572252400782167916670554431442454877955999824825904408635499966003697815276220079846411724299766615348713354054295114510326009578685675691096804262529050506585350051665708749344914067011318738285671988475597021418790763468142732821508684719932579294890468131758034680837120],
    [-16620310332703322584207945406412660379359599903218878579297237431859831506114289466123404451241703453049923675762141060618544712323070186871961288509960763873467131549553831770090580880318111243659285118993947380165670757554287746342709179133050271603873629064551440949142457868227313002237328451490974420460042557337355376426174637740414329913199218704740933036863276553562416994751449670112773186792742617168325180657713571018126034429195123693028913909137195594030631429285294435950542202306061292561543415764998640,
    0,
    -1076839309644627757135561542675711715872628605599032344006358981818653605375530478310475603462076910806884411227616038302786055298682970012927649528044380239380983372206872153164821928902688779655910680505397518979644644072554097515811511550920946387335739435312570017144398374199212102279733443030965716331780934427462567263446069991602535379668819069266964716962510676163767671655263017000575219214149585827898918906579209672650947538092986049747717926402296359529881780345095360167196330088128832820004626428814864,
    0,
    -97816884316899745116915649040394786342049055968992877233520701015271247158437688057391847022957800208830302404572765865034294732347265145850850492511929477102402029184108215803344543881137886335403162669283944760392520065636918384340792174719191799944146108405306566504055647396247914120055883929885817205708375692097137865658142177583108575938953163852339450414774701265463969004051273442360860738684723907582240739375104835953437454343657302247576225510822954668502187977052556692941691205847287351147244369627072,
    0,
    1108094524343858698359845943128802442776586221881548177077500330208819712489240631489743700882402615100453738242121022684958541830871828965871189892443302322472302490123870379457895902755578137503041194673557305838835338217040098434252205153942385771878087230532523809508499290280149156480154325108133963047474182883367812413993694216426540789114237531380512797051283678770040684486109372580120628810037326360170739223881971035615508212658290309425518494386602129407721656537185769717326294792673892912996396032000],
    [4708458231633748825133626092513545704067706892738454585271902689762293536992385008739132892037312057800273807228679570415176251330924890073664223280705437871700003313577919401173184253161784780685170562131343207214382114121089652240879544160149725620663260996253390074042430525706575968184993130864480018492337239168125774485264228948903000977395472104645664618405742931230795660347196287674081386916478853689754296457249662754392301320616645896909169560216450528207457169132492667994485242645682890120892141330915712,
    0,
    519874156868184756635474024055543933109535329343264112739534750396993758224034095845211510422426403246785028043093240721917848133833826182435329979810641923502216949240160127185753079329265192900207726141847103619212962131021519691651290500251788106070696130938963581385498549724840129442382680615907678562728914766602698087491762118986350651288628076663889805095057172501447380637422174870744779824291774681760332389257698958495730776308199401714222589556812016876715016888798159139048129402558008981441374182671104,
    0,
    3797773377612661061669940692455580897630834524017994841436709227643609494539048563552783836604383566724185555605673543597491222071932567576163696986431103382407623586650490519266757044402973640036537284793675475865486118701563288257870838407533133405176081431905764689928202185834390759430635269787136061348882155697680372834731056527203018291869105781165086983202333365436517524100907516301015596393278883583073161727421114830282308633669854000276562454395565329168668679133749318569133537261954771755131036935680],
    [-1256397961517731026518214944909168192618450519982583438137154344696889279622859334107575236156448445129584438176684533858781435133773321572085330119592050570420219645181584508577165390471689032556937955536031799587863880375977510800987348480317994147508676400792533469744733505873195494547208284080090024798029155242221857107160613536064037586546516113750003575349362337754568138952496998300361828300362526047076152574592335433257472587294147028461192678107666802043817980486663828995186570681286120953159909450988272,
    0,
    -82841131478775165571585855072098053382406721796993013599303876809223562811245274868492890167917918050978939830640209092482483188779611593650820244266452533972233903065130091642297277958713147289686549335534472725837876374743789521263411324464132007307663448612314966063866740269518878591500757273929928675037940654691259158692201796960521293549505032268716987171644772815931035663434516941782115023025455949535791020668190708310098918717768018642155395048464457777578481051964930141459291051901882612927603756417792,
    0,
    1108094524343858698359845943128802442776586221881548177077500330208819712489240631489743700882402615100453738242121022684958541830871828965871189892443302322472302490123870379457895902755578137503041194673557305838835338217040098434252205153942385771878087230532523809508499290280149156480154325108133963047474182883367812413993694216426540789114237531380512797051283678770040684486109372580120628810037326360170739223881971035615508212658290309425518494386602129407721656537185769717326294792673892912996396032000],
    [231885645228027784544289645412554088207950872734826159613984762608527417638709279995728367673919778221384483495421209664718744297941582386042173970306712836790548638338709574674055648580497622742115865024123283602700907335833112425900314785884709089098340315343386262879355279073341804196822691619409930494438732081165525205415124119138830829515767109881529327702677664144654191564994814648449302537511276129487190581132421005101044694395867123729613189810194998831806973225029703934249648318033529829425114067166688,
    0,
    3169441896372301658301215525673887381104648802717172873190694349661146341689107966633859001434955608336028843907597503846461705768571848844869695225325531055203753425751749189497016145868800330886957810376689697876617413625114223106327317478747007204784997473570487474206974746856390847017683065469386078347033248059570332911525194377319710617512428754017529728039328576093679678552505385036490343100603857750218787054964081324622939490833859762478051745000183595097302268379406958602843889816720705876113696517120],
    [-25065322372341880903050111301321998527742176326066271722404430893055341961326308284212826351728080684903283029207165346996136430395015012828096760838544753252925594039047966656273798586926547479831512127296850461272098290717763528359236379227049031924096443854620822259287335769489107539144635232848484170811387069049527252992847001071351528775485731091782313604007056358114547597266355721131578943486168953246458103993936363017864930364519946056647951259104329751344626766085851236699308805775871614972402589340384,
    0,
    554047262171929349179922971564401221388293110940774088538750165104409856244620315744871850441201307550226869121060511342479270915435914482935594946221651161236151245061935189728947951377789068751520597336778652919417669108520049217126102576971192885939043615266261904754249645140074578240077162554066981523737091441683906206996847108213270394557118765690256398525641839385020342243054686290060314405018663180085369611940985517807754106329145154712759247193301064703860828268592884858663147396336946456498198016000],
    [887999420787654557153492141023996862678776068685069665132606817100097587221738330298265216913543886661992982002471647178835560100235482780331508391487102083840739011635650623872130753907222768351129395671308331564098353579889360416743843150745489541396390846237618520689969680159117262864009699209040825203925083654060095881136972098207582417818060923490503192895498093893820119010911402384494577600913654741780198649243521046820944932966558504963564452560516905122054039438387851584224202200492805174932374913280],
    [110809452434385869835984594312880244277658622188154817707750033020881971248924063148974370088240261510045373824212102268495854183087182896587118989244330232247230249012387037945789590275557813750304119467355730583883533821704009843425220515394238577187808723053252380950849929028014915648015432510813396304747418288336781241399369421642654078911423753138051279705128367877004068448610937258012062881003732636017073922388197103561550821265829030942551849438660212940772165653718576971732629479267389291299639603200]]

theorem Mu5Nmb_nyB1 : posChart (j1Z Mu5Nmb_nyN Mu5Nmb_nyD) [[0, 0, -1], [], [-1]] [[], [-2]] 0 0 Mu5Nmb_nyB1_p ⟨2000, 57, 4873⟩ ⟨20, 0, 57⟩ 14 10
    (.r (.r .leaf .leaf) .leaf) = true := by decide +kernel

def Mu5Nmb_nyB2_p : List (List ℤ) :=
    [[0, 0,
    2945924546631774165360945711194340665500078510843756657280060528964775026117934306296697492363367746392880036658357928694595844166822695860209557398963961386495441973251579877696805212303217019252247099802333461158290331707232829176127133096329623602026210136665667441116991491593653346813692045591136996054977383174153309444260060922337398108726267512750511343840300060039854460738107569439704041249513079413044731721021271216380318122914182607011423387336221698109203540880191818892478986798262245884266791680000000000,
    0,
    -245493712219314513783169462731789628557389716052641855132242851097699034518641960146691852418635291320829590396197630689357383130196301100970442342727249092127889997943727251194825334926953931963701915974751309204402017233004117355204172100950924827620423546834523287548348925090924088129453209111680218335671653998902207862419290252825744183223152646071522926687012440642387477618802785429785989168145628770607847404546830148649563180254107884999638897400094890666025870329428697634896169938348397733193681741155840000,
    0,
    8183123740643817125949231568156595586176332974230257468096663289934207815460264333538517532032180604377297681191695798866630143338500439783509765007337309165515059730016403872031768179889101612064292874733683608892866108476892514788022660908616370517952501417380233401870995657131935597255777785873436072692959241486080426485877379254103707212589216373010023193767048867453697464528012434008228784833833754197698037994731912449180527778117816736574901475321375005036531640679461027435362365475044105189755336741120000,
    0,
    -190365504877917977356650744205268298399300177386030592585255292299381475894110645819387314153662353502762672632715635003745350674538109059009278558034127741280078739905173562791141897582555507626356040507717398614425123941100502995060387283759818938783716313440405713273803998277215554178399957170350354876061343921948930983530042790820211265029596206320717680583227420349953748329767526041482525593272902635806938824187832872102520936580050580542663636008897184631508025937516490375342872426320804542319995057280000,
    0,
    2704774118158967898129715955181625487722101834671476446489315828852621478361157273058029395605115479010484396790159974809552149084154034975723358563219676004104516590771869828481171794983835709082013204868850542838399481101567402327324369136685707987940996175781753602716093818417354132021055433902525844235446951282453016307401335108968202776448556641230449638983959750090426778792977175242122553001497481076615836259705662503639608103109932784394365471520196008050497228026975384643658952440644808928298112000000],
    [0, 0,
    -2945924546631774164960935810143280504942004781224545492011895798890384588425791563043287286524971274627551841490327236112998897258030962197752573725827827304640412011608802121417744776901841593067114194585514911787198214436467023276980347254777279555541452541663659695961926879908857471696636227134825514997853735179020981699125766128003765580723948001787815801189337251128275443009511090359027507375931735525895161395565692981258872661916554565692601660099993157998023139767196430713673883812211051938120531544320000000,
    0,
    245493712219314513747111477414656354552818874910118873696504094182957570744567548012839457013326245552515497133328377937957742943670892641883400343096069890400864424510599309715534833437093167283562515319733821054549059840583977950102399714318057557280436245905603593584667746334873013231955254213921760090976070486382334058543725870636140275147302680362555304607931913859764209005490378516830960633454967364150553975857148900923755377226454336875581402054537544858979075525073107593053360911222668139946267401658889600,
    0,
    -7972886076890535701846851325906123298857918258391982874567963788941366039534222868440804931984520528615538750677382470986951953020345891578603595415721027525909840707371972344892215364523115468038694034550341474477347744831035296934879027211285526882770327118587255303157948601575728245105646864439304785189338825795936228208328536161736168179336614171868141936269474539388467196231727670640900038953110198028513566049720098636843639182626779833118018008031708377722390973725240495318405658845654753477044444324806400,
    0,
    99868489650551027059654892233982033394991363697363369435013870091271581274585179084256914548002378802967406402044144233484666186127177941255783254051599399120093994612771623036034800934605380369837402157360026053359953118923694951660650166060461945724531888963454342937204451104484374640544677476942500442389210237651646584720212135524519131436891231259513256803653320197029700689008095367521808397344711763917814794188292599107187835320902902083401779146131264741826047386576025251364272639501537813063179819928000,
    0,
    -938411949764155247970659941137317476216834696893696998667146115911830520414388470663511620384429242195939631228457349449789721352425768039758971150842947375751910922177159740025318996779080383514653987350069502405400554965335505727001596801595058593810144066058797669877970580476444526736778644282783389109179018431648040212134444281071237695883313364715338126032174096351101846478466237946957284181176021753224155582066316519149309289416095236671719106451715965443360862002485161735747392207047604008366549760000],
    [2945924546631774165360945711194340665500078510843756657280060528964775026117934306296697492363367746392880036658357928694595844166822695860209557398963961386495441973251579877696805212303217019252247099802333461158290331707232829176127133096329623602026210136665667441116991491593653346813692045591136996054977383174153309444260060922337398108726267512750511343840300060039854460738107569439704041249513079413044731721021271216380318122914182607011423387336221698109203540880191818892478986798262245884266791680000000000,
    0,
    1472962273315887082175173842260110270413884264880748979913021062908734525577409538392179009334946139423424805528819946548426109745312907218413684400226845456441588132797300909796344847209663760942994035728998703775058927460422540203516167911945735450016858960360316072998182438956423012313236017394351724874226280788696430899526646677884404565746539426491632867818687496432988950771587761384486955193347160016517373794824243742076832887854077247867994615893303668279864589702376281636182260209300569789459491765816320000,
    0,
    -122746856109657256854257437300836556270548479891314955498623459899489781624548208061009112487565305442373427546287882560852250721949410814323264543600462609942022501298530531617467772326971414470418893634047185576821637531666760104528522613173320650773154085349428619566846994234582265959153419896234176153756120974559628364305045585559466089025597794516519251572606139524149179535613632462855363023224897578195230378349265768679588246750480457800410763335069370424728814762933693259511725502971019546598472811398946080,
    0,
    3475045083596874867988982577332636700256173737966874585409996855028446556753204301960912246674932515032281663368970234550627812071782211086274066373712775504524823197820951575841025316599430649408942331228147338526337504057442413443841098886124556986768435950383570565227988463785560070710809410632030603790136707622708949363237487012417949271645101930204306692557515354078067558798832973672893230955777123337215584710944976341161139158929756693469276072261893954925599282452699247986151609699114374405704860865688560,
    0,
    -13981593738877990036657019258086749827661037881193689757222284929147439461820929012955876021752216294220934497267587250345641402572434707758243153099433011188154509466887228464884871644900213349945168860279405418361705108931796693902717090860357415827918901430841118360601517668812540272387308046200328010314535221812119686419807255500672559148450996934706128133167128238260999270158088602922042940328697212312567748824439358284516901031487334937090599833230923862077010785580869672742638359755790703084962913032000,
    0,
    -275625983149367890968874316155355517354072904391608144227246879727926186952608175315804443508935236298286477230440566591200178603185416776688698935184109995515636942196025561570044230799882756084459203454143410413236200503252405189458781463180148828876752428307066272146280765899168561510066437730424299008327146071279449847892663533623774418822542730785338217996400226640775322826421151606381706453688992944082629336980229506498722050428062183740526731571108693104721517499298204597670198015543740079613622784000],
    [-2945924546631774164960935810143280504942004781224545492011895798890384588425791563043287286524971274627551841490327236112998897258030962197752573725827827304640412011608802121417744776901841593067114194585514911787198214436467023276980347254777279555541452541663659695961926879908857471696636227134825514997853735179020981699125766128003765580723948001787815801189337251128275443009511090359027507375931735525895161395565692981258872661916554565692601660099993157998023139767196430713673883812211051938120531544320000000,
    0,
    -490987424438629027236313832419864624900623140830039126602665797682372263010128297926743500109131022689995408381468442995272634080873171564062908100374866383900334660177037974955406219729297804593350026006402161339625746773631362908730940126752791182375765706686910800464663687479144603094756930722481579283773844890682112433871257494036199588435814970975549163905607383010318545529286510407798189900708210219978728071611424989580792573867905196864174367352614091875416933685424902758305524558503574233701890440090220800,
    0,
    41577365115176658936222229184826592963770079465822484468285721399681414088708774068802256667122039018147873153571767374012041854240906381044589312359996718170855459390937277520158318886327534267732246584200439197767292488645026620494127332928415765952539943403735760685790868287326986435866946257464202108723741690523892142234209061150821956792399051247026222770287778152105406674159220096408808130209583826598064183690106426745752836237192825089293548585980776838185446295862228322682093173464066408549347877928887680,
    0,
    -397785351749425969275210277431390794429821496442495114648148492305328165148886053588367039950783472913557460304631220045037319978221730668008345537033602714877042986014480595091856939333348773829411079434088673310345281084413697286812465627999966674046338063160787541663936781085951605836288819720413549075909612215638071177702485390715647624490365076954600888528758321777956693644415791168172571696177255234503108345848664298233471347126057021000310706435348589975676874211685470433972728926575112158698201935990560,
    0,
    -16612868472642409254777378689121335665184342590080216256793170148410671415595854365504639934948552280733685432144387830691068074764030234986271255129709221298036645025905763406132138910397380151582548546151379601981387775229889539527497723867444863175698287472092039345012794759303197725632095223435778143670043091923228040011652819004358684443334478533718832114786219036606183615452194179666984377383662354961074441389523388524184764966938789589888662927112672815630390131463241951692404451564230212578246034204000,
    0,
    380449473115062447402417366041414055918650339612951642043564090844865456938111824989983353580779356516220065701964662260341163906699788065003733583985101432896242062422206165489587497549159864992951760300111246321039061685235856124186495084725090041521226362886815314551668189888072096987629443619517199580877749910348477108715803760362078926099368530475185768780930637369349261544176259168660722982898537379671795186106816568403737057471909578438615623540452331842413670033271947630005281931926877090830036736000],
    [1718455985535201595958343304991899898971273980933390835045263914006433560096051498538870861753581430744254395925017577237783492875509208319384126742954094548569478130741028160991170182136617692906695951703750012979460944693426657558720340012896660277637282507194839360546531364047347100442689226506031943209897934787598638761945936930710148748969692072563155794505699937075376428390390546814272944361492788787125221199371073890726396068108185132867633513293398558945890460031804979271078430147648967522653173506972160000,
    0,
    122746856109657256633506126041230337857342707285709037846448525791604168556021914773268454308140532828520450873920207962447395991436285144612028311512452727380649442162623374420429543004135180195643436690042896196990789400030615357657281094286598879826148689427769096977331630982931452614197619975719863863197061668345617568035432955969822762858558038893688519699362344984349046866205578103231466115248915383538448418198114434939464129755738288296713215741817769576463466722541991489925465750698253680781912454393147840,
    0,
    -12345662223162793514879704230822678419676493756637773486278368955481430873117534142818786443230994207632950142587145407409685763375628443467568020001999749456465121127567505227809428750517166508944945074249986541348780633554796898495048094088592101134764193324721384825152392453001592322858792736081350739076408278915019961483230574198811462995679246946112303670305156822824472307559644021280539895406561022710359082342452228441058284113066822493870235711759323128782704457261643116005671073009982582227589301660027440,
    0,
    -3535497336653932461801068856612152142984643518185422893274148763341895869781626939240654787046963403794005524452285082713537962792719551714826012760490108309633829527523037540645267024739546879531961287128524378339499025839458493670336823682434283546027637064318957370294166125748157335431188311695808943741850131771272211178665695745531928008539958307946366820317800208570699513732543901600182042758818295026189744170297547946402702193394422171999210298659074608698263400843948334759261662462249420846686495577680,
    0,
    6459659928326633444367157180647672404848207452793633931891370999772196192559113321536359487440147404303379828815658693532615195838426733969386316120539343594807451240117247708637908597521065004880863441308319213985347628732436359722605116517662718510965613256354209823844661485213645018992845255259083151582773743895846565765089753028227168988005339166720142780380411535717863729905260423807799580331808822790438099431662343265228787915299830236110410162677783651730947825599026651273967081093544430751717301804640,
    0,
    -110780911753271736480354253119499469901393423720742072236699865460213670673204631099495768706366580302669950133292810044281564866563074975718913232042925677627555687635948369969506437291170861334369435632345900216458645594776484345586150515559372993606830862175415793037788331230086425872120920447591174134741590463475201690232837454289494653807466440484018412880640568880693817425847049556208538783992591552721576759702076631368021333402689236572333737665559196131320292732364108129844847855715832716272439603200],
    [-736481136657943540983425309834520979453442015740158000299169891865329833754695845939582957122457268242510905514796820933230377024544064205946308443470936274301199084687637284670941053166390971876912541326135982394174806614215340858833339841070848739656201952592514394049331433814017616326712184936403339374749915377064446492414983364672339863583117651338104468513539296870082754534776888924629150534163177584129282047468573890504547951094359533739755769407151636734396009210498010351358885469726242373648157841749110400,
    0,
    -24517512909281763016765759656195052540857159951442151772828219471154302923944540163590043285261034867663573768491971555630898621444532036460480098044553613890389392176793127912284777664053702105567322758485516057832505558187735091372936369354294861995216544385798819512693911220457000888967171777768321628361854002715587143170113286994320507172052120840676781591258690147351564287176585722583098859318647140798093846819903189446870037851736048350263665532450197207873453502087424984337191610839212905168173475622205440,
    0,
    4225791465331017898504866171546696803794421019033638832032891473945574581419856767319084153950611334649047412477571591228802826259771624341226487404091674188479655172003313056525274830958820802604802034632452323806860140965092975579373510915627530010946881744232164842746936211358582080968135648051450895108108061276766401145116210341185447242427031289196143438551649231148357134641183376080456199264479624059021478078004022677960211009530663639246280183453291226857151900240480051857866477375783140009535844399021568,
    0,
    -103623346436951657253957879974272113152481489863891819510230388410926639761032790929017215913125189149350512523927320583130927533856114465482887790507465483751734462278903733131486095204307768750153538241515732649877298054541206851501665308862805005125855315196779539358607212486090398922834830235933651519147017516578626755421618738440194680045910054027140920123817140775208200433788436250789114085482183138426760170754576978258367397923406271873270807923753415975977784974418420210766683815947192431391910564809728,
    0,
    641337957065506387439811211968248925802066185775416419761632499736388652727254521289277595283995286864915304737086066884876085824723078941905212593723968787724973872614848172722407400301467262232432471491801142811109603312162182491501828503033324321553217400960723332129434703811317377505945349464376171167804526600780715935470096278989629737320589960765627181869061443598004827229675010344481751680281803947796708076787635856349135924010049382373491280061561927215196537150360396950951529588422061836207125630720],
    [253676835959958330613712794910223489714067520151254250813168648981028157996030387167816084327738018875271176101399786322166276856724196398718802620120252646488187003191170309909929083510995696278126623198823765382705293040174267976973826368368535901117255276194577949946049620874645654170606817657827476089646141884391326358826355920783392559096745049783217794465735533375951923866347223000095057923307646715931376834542112116068232904284336562833698880552208515006228813126155145776872553619144317332570140602533213920,
    0,
    -929335382597252370291096472739563245003673723635727229237159464995988871712284240754538647128477316754647924908322442765726645993946056181328071778617772046353642467137641751618282955637097973160569129334763165570248380222667200271490754913552636938559294474115617352725589874311540324534732599412785034993938462936002711088817125001791168333415604095391784107379964601701581493756975416775688267656404631942163610330657662450668785084601020359753474263746031705774670783506591222448330724453836836523082017736640560,
    0,
    -447411325829456987252002995343817871537961414845492224351562094922216765039939858588774324116390246418936971005242666051380462063268401290715964503319580188459715761144708106924497195799972069286608685547904618959925929426364066591776465904403645753789120125999261888254310337005092131248173894606935611805339023775174331138780386030587712312645494307042329911518795787621951055833723502714437380403291864802902168733568790596058968979009308895520740944280726726172569412148249898372680198134587138149426534763701488,
    0,
    46714876643774866795032983094203855576102462631392424494907666105921720336044563789030536068944390232404097000934364073144382860282290166164795017959316027311803263932154491437860119399317264125534005853143316854016554600304386954465930196208207056536555661752380802349275930049093536824535573086413928179342508032995939857051844054042215883400028604515781230787029080827254052498258399789700128384310691711991694817556415912866979189076927808519213974934503549088365379301255541834051644710845317869741980624418304,
    0,
    -553904558766358682401771265597497349506967118603710361183499327301068353366023155497478843531832901513349750666464050221407824332815374878594566160214628388137778438179741849847532186455854306671847178161729501082293227973882421727930752577796864968034154310877078965188941656150432129360604602237955870673707952317376008451164187271447473269037332202420092064403202844403469087129235247781042693919962957763607883798510383156840106667013446182861668688327795980656601463661820540649224239278579163581362198016000],
    [-74067764101348957654834840166927768803485157675656619115681904659777083052187537100833104884367594414426985672741121400629892428705784309083673005820271359587154692275102377777335311914904351841338263377236296730077145791663797008801942729493996154830526814908121835501642728109359715569939764899671828522274934519035415513612650884306878632143787786259571146297815942838845438157567533489632807028481341165424671596559729714829466513271555653272675232126462682423781290771674893802337690443148934067194565797875899520,
    0,
    565386523429415561830877929811963640363889332538646865220646773475540960298402326643629752222967911990489645563153711621039380730030628271312928932436350821589222132195713145036591887278743913552981738633533122107475693848580896910622080271404374504639146520016440676630885807803724006343769998552301935780183379784728187986478439961217923789136867748995548333346746008535571918705627950446009855888696123433429179530919952165720834219854871132609347120675156229793047791924155744788091063891429689457983583639326816,
    0,
    -374987816551931524918493100506128000761805070463466101922283905121983727064210376009676341678702158137485536361149277824220037808598227688539713014140311664902139690962126009787966601670614324960111971330536352087791653951768793884477009232666075724207052119896921920721775710075706658960279320447503532213151702625871467655865826860815465434103284839098005745188392667784409903358789367076775385956151407604328781184772767707840075866509746249605197724416535871550652903569494971468417162393232135245688522205918144,
    0,
    -1239142902888598924264928812541144855978238653027850741389110909503099958472100164742723154671812417702539438071302355063907295768105564882416485464955139178062525133762668964006245374285729600999787717033907891965952203603709831275857636835117603128999394025025259816998943083635451459852513038337667311137559392700361907345277652487662270311711325461689348960333060599301473306523062550308680223107858158005531119553917622258640826878678898254892191115158275609563350551731277888496246700965580523563471864837120],
    [15081737429040333989934241079621020173328293948354951435036461637813270034052564849844547356931111759413346553680508834198332280128002707431523293155128880655916380598155988614823313009062054692819674316651088112919294881330672614662458825344923840121757051114429743750928595040752827623213269504470946662748667867523675130741180979000258455198938340987245543936065934995550912120931269104219227384299206416741217995546927375203653159123975609408128701156284082562565140982145267631918834830681580924652532139846355440,
    0,
    993257595189727778131147885774557386600985971643916690148866759960617013554440946035506037221277499746029656348742947445092722401411964024988767812220052387210826837163918879173016724206933810535868703777412729817139166173151888947054071069981513365774961046626638619875996196521934363524803368455551633453478369701861718288605854141232667694375220090248928406930524444978340342426727095565672079856868012803822627432220137414736531497094086576761028143171112905300432358760727045205291198632714717061289175990402064,
    0,
    98630410529871120809207263037171977125677414133499388451102303521852721983252929684715406847102933908409147257604734392325455619784455926911180167802870920411408714933799732446052464304826574786472244877038601174005216023486018653167572074886843370255105781435946485383297013577007054744548983350383042638447610174899945678086067008621046892083828351239169453498840771001047221887079425310189770606404332269791629562709471383944577619234703822303574196511732858423663235775179483548534429665819249623919501834587072,
    0,
    -1107809117532717364803542531194994699013934237207420722366998654602136706732046310994957687063665803026699501332928100442815648665630749757189132320429256776275556876359483699695064372911708613343694356323459002164586455947764843455861505155593729936068308621754157930377883312300864258721209204475911741347415904634752016902328374542894946538074664404840184128806405688806938174258470495562085387839925915527215767597020766313680213334026892365723337376655591961313202927323641081298448478557158327162724396032000],
    [-4158058783301579333008853411400105991255344546634850450895407062866633367544925673348078356226429274375082633621093243886285431694089904679177687262740525480887570020434852129616574683948031043251068777590367901063089681319849470907224546438283584126078605176339966050717191635745294055101199146696505008846223503945327930921060467906207690209217419848414709250537314864587771610268979312170140723469305467624013221687121027409580035972122752429720645548359614851781607029914585802755112415050430100523313642515613312,
    0,
    -500865007934756938854368776140238417345818868211109125347713595025271067905633854341002037255900811738874578722951858474562616707922104080377052821522849026862463020580278075105876878385999462358520252184380677121849962066006847843924005450205540592770280723761579392398391108827972689420898637859535305497996629977541727004452736560922425377362760863425887367834317918907864430645629870930116580744485035104455458844929566452406042052669948365766779081238003606608677208431575224302625154183844376027472464105423104,
    0,
    -3760961719908210623409480049018787563560609677606534322301486818478977222398709372064001499911615409134909485616776843897566763185657287648643396117358215931574998012755034273457305549174393726464440377051418069554123613831744027534718930676301854901105222851971966298256755574893537674716916775604086964610727838602285246561495497533303800098063830844909952284404244085798956267505475121306323949576279923906655655261410516229979925605377895274531364790439675073557094177763276570894396461108005170799357980935680],
    [1453819791539567790856136547475031481311345882687088657810866306877491943664781263971053611967978114534404040723591075638914840053544234506723872814441795154553167794838763046850234696422050382001972610103337080359925701163709861141390241610699767959833913433168204422723329978888508231841954438230894290169625525518359349918934783066684488840937073992559248529401153520380072124795669120156673443710731254005087790006702775483637254283044598317831254842457931676734431015521740840300598432417036041301882285283557872,
    0,
    84332960757471014465628577095099854729210634705954079866183327123668698663371662165063665654677962918310955213821214172304224335091675375088964040885871683244215627742585109220926425955785030996288221977151245693968339763504883907775067934535617189088790792781702734374876286777083921899012960651212754840240426956751855297316424184896473682013704959251802476848097946796407617813136798704542262913472269659490340217161245549881626433151963850912650742528521747654677732536484939222998144513554442062017999117057792,
    0,
    -1107809117532717364803542531194994699013934237207420722366998654602136706732046310994957687063665803026699501332928100442815648665630749757189132320429256776275556876359483699695064372911708613343694356323459002164586455947764843455861505155593729936068308621754157930377883312300864258721209204475911741347415904634752016902328374542894946538074664404840184128806405688806938174258470495562085387839925915527215767597020766313680213334026892365723337376655591961313202927323641081298448478557158327162724396032000],
    [-213826081296898817183026836860398511547527779718348323677534054281715139707274803365501783175759719712201809084813970752232228079768386390373715313911136571789773057793327194783289552006074606380493924536558747584359618948514706777148165399336420069107195775655403769360087787059529676184558831068812430049431080794757306104209010063823867176557934913186019048780988346958407645951655212162410281780613324305345587545103918650819298128406085693681635220924560194183815060567037916255018018547202250604605972979870688,
    0,
    -3141390268463911161277015642748215135571490351092608951606931363727427243162659289692639922575709200283639766581125666365613115301604505207435153384880646342543735445873699791454182862031528925964546518534464123571147512029889111896790112258743053336605525839459336389757284033075811944790660256435253309041948142252104292888856671289472664942208168114065277804237713786148219614243943846151983838022350844903890095484451705100659512166038446147085269232860537268775418901897637626646273110625214909017622048517120],
    [25682140959898759116118265655328705257433402846661873833870071828237574636651574772526630945570336601704238651104744592999336201147897463596503875986593336554287088558626594942526128221954772574384660308493498749581094511087563444161362157876138008030398307413475775244864260998057590398496638694254132930544223924880723460669218813755791729923077330630908773137909444860255809371584091608638439404593131285955884743239547506032300493028459944708439584057043545974544206719462672652643722279471422137009146982300384,
    0,
    -553904558766358682401771265597497349506967118603710361183499327301068353366023155497478843531832901513349750666464050221407824332815374878594566160214628388137778438179741849847532186455854306671847178161729501082293227973882421727930752577796864968034154310877078965188941656150432129360604602237955870673707952317376008451164187271447473269037332202420092064403202844403469087129235247781042693919962957763607883798510383156840106667013446182861668688327795980656601463661820540649224239278579163581362198016000],
    [-880459935394743402169858252197407297872535172676390148412623863643073175025192778670655819039122139199964958070772582156488569802076073318109721742216436943859994377073976489235942589895172197739374569708643842473046643428781242005244151835867035844531688050586537926077238055740971010444572425013692627155706473040613192499393118762458685967076884161135115893254661105879392218947030026330161140251312345570890472667639630417265812305877588931380971214100247400154458142982727393569069598139285446527113021313280],
    [-110780911753271736480354253119499469901393423720742072236699865460213670673204631099495768706366580302669950133292810044281564866563074975718913232042925677627555687635948369969506437291170861334369435632345900216458645594776484345586150515559372993606830862175415793037788331230086425872120920447591174134741590463475201690232837454289494653807466440484018412880640568880693817425847049556208538783992591552721576759702076631368021333402689236572333737665559196131320292732364108129844847855715832716272439603200]]

theorem Mu5Nmb_nyB2 : posChart (j2Z Mu5Nmb_nyN Mu5Nmb_nyT Mu5Nmb_nyD) [[0, 0, -1], [], [-1]] [[], [-2]] 0 0 Mu5Nmb_nyB2_p ⟨2000, 57, 4873⟩ ⟨20, 0, 57⟩ 14 10
    (.r (.c (.r (.c (.r (.c (.r (.c .leaf .leaf) .leaf) (.c .leaf .leaf)) .leaf) (.c (.r .leaf .leaf) .leaf)) (.c .leaf .leaf)) (.r (.c (.r .leaf .leaf)
    .leaf) (.c .leaf .leaf))) (.c (.r .leaf .leaf) (.c (.r .leaf .leaf) (.r .leaf (.r .leaf .leaf))))) = true := by decide +kernel

def Mu5Nmb_nyB3_p : List (List ℤ) :=
    [[11783698186527096661466867416518018725924204755270543747153895361031808849018308566956693626764862206719308772260858724360194244822836061106589723962215767097237939653906289958726322486631529227855614492519771832623068078389099126866476946089139306669915574944430340505418974009615516038797077868837737395074377926029466881176782940535639386868619318175907813795832272931336298070754759149178449794774330593063295287420841309297036160219165456523981009344220518946662667076282172861119171770735378647101646376960000000000,
    0,
    -2945924546631774165342013773482216052666112777239044366245991944726029397275568620116327294366831657453414915961386601139327062772729161346916342223504730847974358698598970852071988705410576018747522659571161784852144771652208957296496111396932054666276800799679759099221335873748989046405744739881516806131434260648213120723735443939366849571810081252038422615781389163002377735455180744313215871992478083953468183258752331606799208589710980788730247241999456868808607535803707497647494211120089274067642237785600000000,
    0,
    245493712219314513781663996640291690943072132829089296154036633826459541338126510366588900131741483975162311524831076655980338596614421431132069714518874952926003105561520411846009246993958263419766897243022837853158047661698449977750272932302287748617394839384063363107698720388104513405163441647402148103122471700041999073889079137414804076622148181381203345899095898272003332612754491280435863191531009094605145760129187311682355987122206660425541112721630547396238660685652521686356857030140549777830654999539200000,
    0,
    -7983891958216626985875497055740189519200414214197988138654996183512333220513150926803491659763728908658786555349567857340600247684186980482658938515482592728811348790724680639153036890806547814971145505322819974207603117590381670670990658798031665717143316319486840051515475558434750777608856554303225629892444984308459547128639180149070099796654058210778302212981379693168447789607318363554428753570926425123229672563207787301641647539504562705498315484146611731607689902642220697943446566206233285080264227802880000,
    0,
    96116935362948581032275475728389256117974521192919963404906306773051045108969360076232602450057016484602977067567562301129464900411020875279075855553583545200541225597852566523470272245097347129807486528116075247585026889612882815453092479678184280160951322875777976233925309533780076990141147148761551620576632493633755645033860212510889073608800328771803190964515270502691412229430243903714663744537858061203996057681427717209862577318937314067241056789847012404562216982963310266115726454629084969502001102720000,
    0,
    1515511954386935032817603139751360504957942941638292099535976973124936636544849051352723601938683918675626194305152193666238993246699025080574287385905080243182873985667647307629520363912885856224984625704461604999289280753880968519704006627785496156586098227547921658559084564623993759833454502082590359082036006162933518128374305149195885257752329388938505187793179134794543738634405359149103968139655432132364487466273777519252331826323078718177220027323795115498598359692205161170028770528260419170678912000000],
    [-11783698186527096661443782844777362662000314043375026629120242115859100104471737225186789969453470985571520146633431714778383376667290783440838229595855845545981767893006319510787220849212868077008988399209333844633161326828931316704508532385318494408104840546662669764467965966374613387254768182364547984219909532696613237777040243689349592434905070051002045375361200240159417842952430277758816164998052317652178926884085084865521272491656730428045693549344886792436814163520767275569915947193048983537067166720000000000,
    0,
    2945924546631774165253344867678062250817066092862717207564160300756989843401009846132738660298878097591677206705261171377048983812411656731301035194816728911307388403862657517270440184158857527594073184493323605099263823225276547105676784197740707080437598145133549910503486098530710584798938583154768904277055018778209392032711435656997266801847104094568504778155241654901292080144097898073674459893049609347553249913247755679131780390276036165198537623783455971239134117451458819339042742737961644031879443860352000000,
    0,
    -245493712219314513761877727315730138367312031577461428780813446177259894615913114321137262484010003532632887091194178168177670091835875193042462437600388943091213218541096496761343909315873101256028915049911083412266571608282686261408725768957634108457421436493984394375891521301551244636615847175784600316840659723513248864265993517974630383449306731388663505575366430008853742436679833891576913959272617485416004094330459451719567538397642091066357755718662975820572907533773392152166349856865055423769750919083510400,
    0,
    8109667124752883914383669090632368269017137803760773404322667970384305302629031051523767559533764327829827405777062308136487420474060971786520059985783166608689633263326320459244598272329678610791618186106036147121640996093205969259995609903049449576342874156801581577299640048189111699672929043763142606065879165086131231830286267732672309244976319533241907054073480735825046304256699880677127058551116189496334956015643688632367973832819516100133394129416724362135244456729154244853966556819544946039773902617273600,
    0,
    -103579843991675870574519161053659493607715172039792073912216752579670799733344666790251757066649356956632179451495272947486213665501272397731619749109599559638889351444479243748623366910228969033871393973593807950024460298886661822949214992079718834687805326138697265172954528339314407775599696960344867784410155702149107159339299541619014770820335215301920096707728041457739395634140043041006682419260623702803856621213518542190581776751674421036897839384935014689647416348990431863755223561974802350910770303272000,
    0,
    -412121772964837010226064315167756632021237316843421069642987593021984465171799987249935083416963578456090337989981353723334315845961963998970721851632028789031447865789236925501778545955769446019277034186838722242311851924299475352362900297029507040496762641061434433044121218589546397704537097002870413593424615783358339607001272527212925797992231262521381662048280968324892818729003523352762710111208371983136200222006846312426793721785982765968846315615420344905612526205755589941630843546331979388294613760000],
    [8837773639895322494501729467090905967101906347659137601801591250835508956427597632056821851733053441056792449999922343312668526259394687444093952679806578370587289347836237633598990402196790353520934118770897862296648086093659135811425277622177063555889009366974879684626371645886440840380800168657785253859980680067870806072767620572648212751085710755112840588975959841510724036582863617122894157511248858150112462323510440318236282057955237474040159398400515763183485023265078225207201324128754933684839888391680000000,
    0,
    -1472962273315887082407782964874788396809426956775229979516289630194655896163145966533498635940700599417372628959137055603911891139521904531401566866206486166835330514648932952418241975389624610151268078277116385467699563114935045140202528963687629389843677601686325866012184296242364739001371546677518439493098662225890692696609513960901219134804939613742336759003777111553869791998759428705002434307345380425825045878024653698335152280468276214098439740758034151423436343495008636530836120148492737666178043411697920000,
    0,
    122369403842622027148526205806592004665890353676163316692000092509864703143975814531065113317181292891489986345151153661069519151048560493481683961530909597620134811588590348375412206529830565584108238400488255735270400742305977505912553262551430341244561505851653473579844813315124375388813425279272117492155382933965029476186047651539347627975349605938853855081530402597437941995705711629265026648255776384725614703608985296148538185075803072684132207573408386164692597761386774877687506402515603804480043325025629920,
    0,
    -3719958929007646017550388545735726367632471319176322974046064245612288373682681458235078218136791152777876980694466627575698301859394944850505728698198357849331476140810343709987275393273418341591472532990327031429590365054586630935460645010711286945327068409935449948453795603489627022926886494487098579935807291269251437437383138202694024933316860009026833330108825792324705106341399582127884548596855495298518919485283839465207611485105537887972550109306001772335771075729095290056926702072939453183389477085031440,
    0,
    45058082129718094102643936391826341977878125411987986671798190890245117226857723709904786883552442452268561063297100698095459165793706490475799123358707393946672128073800802255026710919187490658627313909169895112271898947142667434296404918985568424983586613339094178567291629316147558042890858220692689999085144971781362201820000356589821686234872436673135424262916145151878358202722315749532488135635437485997752029360760052143425945506201807781008031343817690548664175207399566423665177534277792526455742191288000,
    0,
    -353525787599564468113622419779409760082030026785458315701441228406852827727965510303926297346004433075351346979298094281472324639773699489370651577135100597976594611792492810238952716084658553250365943622597888563802428072485613398588265158639912039654396179519729991494836824848984277647086551895703290065920569287672735074869750207068489694472550075449920734238157840642929482481864960785639632495571450148684767994717992232840717194626092494263977428317771619226267647154954417882988032390717855522689104384000],
    [-4909874244386290273712706203216695859297588695081413553145866759659540535057763988609512196389988790668658738579599660331514520210410380950117241147908645651482084110876364131473541884095428971887518286220681683636188024480446552550021264257649633340593226070983900681876035058022374169489631159316079741905223336367793994464749473077146304926924274779970210106615607855969763543892675430902561274225504060883379024502423860478372056603173135906270552018990517827208531203993475888284855657606027816991507977132160000000,
    0,
    490987424438629027250405527929750711904189948182971379346408279651091755097022293331638462160864789180723044764223896867412618297495257731179915165102332897748031145545067851535049175297808809317701885936460548638595124685095335071043988868956380781132435480094323553417422145190512394418973675231601688845711659968177669724770609960270114410277105775144880931715998773873167243470054228841066365779432183810199582436831842733090015368495508422331664995765815686828292886009436662564644390937303174847713252141508243200,
    0,
    -40525365920464072068205222998629302111972737697529791939124959304379322171994112826011719983745614015844317840778957205784269598689820778231567770380519569231737073374168584108049864495331636609425438991996724682706189874658490224641871521090124476827819858198634903614836593217336093424901498550884811352585511721240111111421430896278243476846596105772764487931343037715587721767563784988030736122404962784913769195979093523701234372655114962644309928969284981194616929664767450578276652117722640778098332532340552320,
    0,
    1371354046519052648850645864972618381934760814592148455800304451116572128033009987416746387402715136434305510230212383721592830273186765766021181596529157525292740632181421626587621463942397396440503417338102497160127999940308015823667877825993718741694735098950896278435058588278099029148447962869442957688914520581312919101534438344788255490409008126886792512813466080474436203026422354545705037672566820144007871652349233535902030735466380701552114246190297994349898274052671890440843444350125218618578048097929440,
    0,
    -25007618737684342548835343949310470675812788226027922577762327926664400923946501700123693979386182903393717511648217365292910626128068736830977245668281663921662873655753065757259486030140309306567006955029286313345328480690647581571885223495008537940842353571382430408143478079684554247267502724876676996564552207146208602233651113402996129713136797304857062470548829524915726567442015220138025232734091261129795067346311719845687593081371381592808501802963754270225169289307964785523235641450647027141190199324000,
    0,
    384662100441570693223088710802786083302260604433259932635901746633622557457578884128420378857660520107666102502613507477419905358040376487908943097260653127422163179159500446493426241971021620042167784316976010438512939703650580997109615163744811880079905459873157902554139757672084311889082019114037245356456423202991624117329584270659159181420261349413780318304396961593852333438104189834315211623202985054132219897913189156917943424592838936313796506943315718939414108715016947838100556038574152556401569536000],
    [2209443409973830622732700187481629248272544472996788220312369680172034180495781098909602120470691971787570670108532663224860250136723501428785198565542663539046920416582493013281652324030353683070865251063339990474037855042563780117790156325565708049285480352922082721416113703965093265828134768276379810266682809527854430433336243842917897343494593531679098987583011833093514729549555149780402147171596190272689152455149050155695705045692772607937367832367092027553825334761623313560456008345162354610369002562394880000,
    0,
    -124884511193805816957421701264550526733234643484194852741461499718017954169516909572482732079238620310980668633359769385103565793914160453713685588990668068027995203004553323727705019671575024542785179293750549043801543358044801129106782426562274945956618389610525753948759147828069143419301104439298591444458249346334735887300238250730173215945767485816709848442583361425594470013336518393368301708989554237301972016232784272385339352025487235507994148798615934441161704770624578851072762477751913439466887914716868160,
    0,
    6066969142943274525779409698610012929405529469567948848930414959105048407373468643955836699777855148807438328605747857734126179681554386778558180136182634242417676654412178414115428363711463344860761046380931930307912304860378063776160846712673310003756935624833053107490994446364037579693996746982560457491461729507654681992495265886073958891341422713152090221921190694079892065561164580815215939262438984681192291032659558026846929849450489640814871895227092159251155782629195652458939495635938252711469262473399760,
    0,
    -254318136178827580539503384535615576031146055318170069457401958867530298553485421425360289802776025576857527540102140527973584294009826376170797189308790127657384997946144609526028138681045217242122124208642925388852107613454828725997048889495552083202320924552038397660489223169896635634602654876026737879787247983524193278195368482175780282602357942825550233968467063389248089004553274565412607992310371633902098526354357506332297420592594073792823352935419092139876483214907223110840456111071490054224096348633680,
    0,
    6943213482925615203256394947812147361203869391263563552503732935938540617931865653313270515462385580113888184592551426837515089621829027565495555844139573051630095993889580522886864957692320767498687024749299573126699490721347456884658117182846921954189175017070399957241451664645008411669398926631486406402042005112651678893944593242629453118205060401314173082163121745605807597440780795790892787954308027524093125946006230029761149597954066674299159899958512458365286187852968344006787496836206318462166493484640,
    0,
    -110837993115500003191614935506261018653923820655567563178800200581550271824643495198452971470113942717420797515131394492710143499611290817455324746445734786866904810388825705922072743259944766166238803302365560951308422048631535341264290515229104160768786583931088968863911526825943405423909944574035618474753246113198360792565901388995813504015381065792084146529616166873314319471374824959815586978014873719312571085074317575755080309128968825312769961211761229750224038575073045813620411102818945866326839603200],
    [-834678621545669345867191526144012098356372684203686076864720016013193771293061087930833202872595949392240864184866166887416863072071299446213969172238837658205714131712770248789448484177299345316965609342981640658388954861801231111860862575522342282115400540926760197473240759201903526241497650095847808392600405676001543715376021581159519456463672601649483932412137878658013007417333458591224234326096045914472426624361064653775145919471060103031015035867203879115256971138580989648209274618093470086709493289065846400,
    0,
    25220815131727539242079603972640495307580104891960458392154655438498370104374993024826060200226536162251282731784739679451389241047000024777844759319773424505218912997246124713256071090382749160764545937327989621578102822628166928993694321561749440522777349291068993843230113365952533782857808934064678141488113930363747738336070373120993559100891283214507785078813559733712481317705584193457417459969167236211252681646096499704033600279898001608047875904750518610454993993031082706674072565977792346738224619613967360,
    0,
    1444393396464763619344746887189877679911366496340754542424981043242051716533398073031437127563881297713875396213609887361027067702707674673431295578050936082837007295788251224053808225943102322942157874868062834667297766743676892732404910287919141862440832315574419499613579162976355170211814587011573475352372133012080304454599550096999555567269749365431662194897159759482815729550693408982937410611326654939703075858772686681327598899268232977775220197918155541904453617560464688983179639224734669139378814648058368,
    0,
    -87771759639773244672466858994547790592065723474336690977080656972299905854524427536008661953313796364980325560504216484278376832234243102737384210475523858035553843845996690873999426385102955509495771883435947334455292155341552127160328951530967955952336247273190815092515040951000174347115013191009932500917263387458522742934609737367040442299593577569963009062015279578085630951242664412614094650414615758117800233290587646573931784172538144994194245143042067690888554579976773549730127195804321943039270508361728,
    0,
    643109495585717060755228813360557905724025453039290548691017215977368230412031654587806900642676446306643404076283317708497071033766613709082477348284845285867169070440677027465386049964813141205786915633931221098901695083604845160194926189355304282058528197603932494913857726111073732272881103051759958173681998544459497206437511648680157857121807711809230780681252764467161314677623980898432831542296976303858954960805344951295696138315827666709028336752476465668006498966019481753023417892596446402854549630720],
    [271125798486582280887179683887383712541558883258496119760297626137969926345853152595716548605651055848094303776810123962949667563302621965463849547009780272862377968939266047206841983028900330238727028922588050753916987861942416586972986119468194945276106438414462359594878537697724364398348633271184626239003338179996495538439142988706100757461669113434992606025475536562710257098111287323105903835572324505168235256992127999560107326855213281215194595057856571732184083625296838035922664290743489401764814790272221920,
    0,
    -9874177440652228702128695804767692797830649430562280972179149789389935288004106795717260268973460300284169659444683496972756494915248077904010593457489590457958796071449715365750648404705315310415883723016128914205746644659683248110785639308130248973931872482818856842879422995267686825781774079349019246514010781043726159516888580959742882854016240468007328065574612931051314484360449583904895824382583794138829871013424433883451699081183352448087220205174738641774752331186083992175837174697423861822826288640806960,
    0,
    -196415813750525265649647860554129416285350155512449984629255351624246897528115689742564043726432237967476131932382951950571446484605266478146278206155190336097005840308858307620894280159203756380475097227452569569776654896132469567789253119929175938316242984081945756922558248902813116135458670917542797736139642762163570018987152697087589350773018236765504747346664277186201055694167122964367846478368792924856790829792457233268798346724283019212376968375835101166915803584737726934008852276814274187226616379112688,
    0,
    47399298959159235108432876309428192442154738139974110162658636136129848106164431817662391088349008106896100042963028947194315876346261841692400222685725492694313955171893036800115780121483236007276620682083688223726015110946919663602614543078340293918288482424095449094403786483949555580683347862711514370680199644282322492447527469357210625149344613209297897722022980136648285510162151985711234641215559404001419450554651863489757119662198702393337662730947280618598511259197661360073186016933247181458292303138304,
    0,
    -554189965577500015958074677531305093269619103277837815894001002907751359123217475992264857350569713587103987575656972463550717498056454087276623732228673934334524051944128529610363716299723830831194016511827804756542110243157676706321452576145520803843932919655444844319557634129717027119549722870178092373766230565991803962829506944979067520076905328960420732648080834366571597356874124799077934890074368596562855425371587878775401545644844126563849806058806148751120192875365229068102055514094729331634198016000],
    [-65938497159178029466778954728996941866290162459087239743960078007736956214437221233811733200385917724551164185274207269509892618472357826198736536628550097035439917729582641450202338484058931712864685584091335657250169885914760273225919663673254681258696979474452468350067159033151008092683287204597006595994629557109849054018119085253556456939522613130400276068713140965200273774785457541714724632663315365512359421494498507735729190690735907769770720678923316453167104213971747330286659720955040606397633539066606720,
    0,
    2498297827528063802209292394339061587477659396780663338798078412391365967383460213944037043878128142875303692731206626448454388777384228870278967676908120191290930672210060654595852213863654801011234446793241092149916142740539063258627206055295278074676370970455926921556780278379928195077028220503928107722061452339923891183645281469870084704933424063785233160040798364876926366575012586528783956401837226454122959731604083338716527690635718910915901050378091565463748307357016243686973533534613496269753469073438816,
    0,
    -352114359317509561644884397366544860553151997289267294049881751472034242368040306546600934474216735064171017844052154864776619565582906232688352198055019941253569077071983086743049254018528699987105436550219210238886041999459877485666918006198026435333617339427848833091398903624458803752332218765408746605960951984185597344217509399087738681125344994852479963984944175785624390653409714392713487737481019174407553682591190878243299224373754630051429528835484357430522937279874166716138348930306839776452404028254144,
    0,
    -1274183022072838689209971854585629210126504232175437131594948602426752652927662222932976186005899415850087408721001803940210769445337310042759521579467150130752955509832296355072718219850963635598530180634035219989522616702086429330316446880026901672564941808315849045885966672276548189799295778933332620869836237852078252347545796111870960385715382646900880060318958558069878075670545974749420790062841945325886379135910511763996649692665078696301851722423251326722115091286091551368911888815355739952597496837120],
    [18158883236366311178481649733204300585390905858082805723558013225906392978176014082402261545552295146686500797843773287038757144518137666312399283864792647091017882500951674925357848751574167794498895921336806647412046633777902878022959532921176703085990207014673138147356320695701798381261387398511002178171417247151035622111168296480570204627460096422236322137660618111573921868571630236006318989286278817595432365768499766832598909734414637977929126661990308625496121876425321239982249573930541660470554691683641840,
    0,
    1160421024099527736139975199576866045144271239554147997863851203676690197196620010585445169702876321867739166106489129160479388195953976000866531243868708091551139907249825427156627133598443748775952657233382308142150121971956306084568952031860379408896517823998501414412800551876489841034663517606379799210083499153063416238286285841972403064962418048285001026994496907349195000883798938435478358571431158851975210380938281930565363579091885522734407709633479813759331201929463675129101461543542948578720076867227664,
    0,
    97003358103928369424624035043617595558420697804486366015939098508689772333622446430068287198812666509251457551540797337743133844910074364790520817220988033793395343434416699160636623457449197884334080461529288346779824107787818115514012274551540229633186435374666647624814281215488773495562784509388591772969141209294330053230217346545170259794077976465509447330708631529880716121023121574531950870965115545372851916040738287962297289452610782191578254509913050913341140178925629837348952745875325078374986904667072,
    0,
    -1108379931155000031916149355062610186539238206555675631788002005815502718246434951984529714701139427174207975151313944927101434996112908174553247464457347868669048103888257059220727432599447661662388033023655609513084220486315353412642905152291041607687865839310889688639115268259434054239099445740356184747532461131983607925659013889958135040153810657920841465296161668733143194713748249598155869780148737193125710850743175757550803091289688253127699612117612297502240385750730458136204111028189458663268396032000],
    [-5258857679965918317258398773626985416880069238842058719648398316657953706439844344130187427848194841225464980836265896944067070967759875468150759298670350262512436606720986672729793822375538518119272346672318513365674546922329833574534541882015867115247916816166814097367669415667857881268787115032455028138450974390923618049467989991598311745573524360876619986274170997873819710425413263178022050363652239755495371227378298099204566669110539364097693572073286204633307308350399533233858070240935679718470640146218112,
    0,
    -538883305801612574416579271970849448873251790475419100131355905768716448542434337349420983588951994754695477363234622969273079559745548284493607138098434820141970877900042179265629280272530923441895200099313530116575962196036191539378575550298035619371111538116347770372605990621707569463866723372280051627461199555663669170530787677050275925214495289901892242355796426095030330629214478811372978904098514259065205933585831464585419499946450437661666097875620427144752825346021093975471104621271641935410284259919104,
    0,
    -3834585035317111499930401335892374231701059370429455360571931636808241766679387755041566173297151724313461625594570243297415680958207847503683997855503990833240249160545946765076208539631553553608634192535932882176848623571382548981022746138764411909246940011839563081599648796775243844144353763970185158087036472793075499107966615521102236485674380717420221682000422645074078780696339911295707243210277843259490668193431713430584691661961812726021760118351455584780243180504222066243870613415904372710904092935680],
    [1058976131495894262180293342343304903925555157278078218463442382516286615580937404244096860344918775724764835629777992078648030214002408637446787424742305986287271495524405970304096084521327683111903300968726518815802059588245160460584455349936220335183439368416862516766137032857882757252462129929285759426432784966084364295386444005443586332155958234940758621297571155129064153109324876444050212889993798089064515142481895382877690891543695739091130513757401927353204945451586817689774708945536200604437533618418672,
    0,
    81349302200079316677543133049096252035602808888031947332424426494778426959118887571922114681157873183646924447459204012660742042467547812212676447647033384700252178387675074063668129961641263583084876693917699757707412985982695134751754714392646825526536104442927197752857193761953835283988553896647102509835454352630663020067979409024568905085305105285631497495191598835454453513732235179021967132578642239581241824175135866738571404283572186371660047568407167900479229567444921059920437590249323163837208395777792,
    0,
    -1108379931155000031916149355062610186539238206555675631788002005815502718246434951984529714701139427174207975151313944927101434996112908174553247464457347868669048103888257059220727432599447661662388033023655609513084220486315353412642905152291041607687865839310889688639115268259434054239099445740356184747532461131983607925659013889958135040153810657920841465296161668733143194713748249598155869780148737193125710850743175757550803091289688253127699612117612297502240385750730458136204111028189458663268396032000],
    [-249945209159156751905552453964709664868373965751303995550435470935339695570143756625954952172079836730567157906028448577205260516114778381710632626702289101791324218884091954564821745154920639103737805511687819621042195723151518074652464172432998109089484855031368756398622771087153932209086552170007430939446383367573744306621238174453794482473599306577039606624366981330900737178334417134488323294409227953628793617160923359382791260385648553777591158695829803479798885883021491613481278088864809054244255154462688,
    0,
    -3197493524280692155325415408599559626637807254341736794774457335594865440215556643575078080294202016388417921234069341327310296235539192482304237065770415767863771405629798587539849429706071735809369102218915272182087315220339334315864522698750961072964469107681638558656665460636969749244705874503518847652118353867036372934193717465166756292816689393969781651840943366039139742861066923920996848178856870596547478625476457548586366815629273377870834257139829921419185634861176290559414669008226502734605344517120],
    [24448503784785002689981956947315291798050949805470669610938789957873109286001041795899021757885824768102327407309586100992936659642132562059689645690496169951564099519469338370021468951898322385278363946100202172963102070347963612557110600577960055817794580295765869273710410540920624679792631771442835411078550213218331045316475188386911327627894131552655854070104667855973285822948619833624718482379206620537031464748325220003429367700579947404856318461165113528145046812709029820754895332080321092935658196380384,
    0,
    -554189965577500015958074677531305093269619103277837815894001002907751359123217475992264857350569713587103987575656972463550717498056454087276623732228673934334524051944128529610363716299723830831194016511827804756542110243157676706321452576145520803843932919655444844319557634129717027119549722870178092373766230565991803962829506944979067520076905328960420732648080834366571597356874124799077934890074368596562855425371587878775401545644844126563849806058806148751120192875365229068102055514094729331634198016000],
    [-895538906180565712137126029850586427485016964693749181852589770557121999418283881925874614787965634124021005934170712201182550398394892242553295040757767223821483646197324758508318917919273338962884221633972820655150063730997478828243534465623943238261093641888699115302701304577263515283446973404389023252143694267506999262880825433956478868559237685845890492536335081908248019074792778438828014950514963912669924630847411676376077560055528078546157691020786410089649935894048309599378806261700163822751728513280],
    [-110837993115500003191614935506261018653923820655567563178800200581550271824643495198452971470113942717420797515131394492710143499611290817455324746445734786866904810388825705922072743259944766166238803302365560951308422048631535341264290515229104160768786583931088968863911526825943405423909944574035618474753246113198360792565901388995813504015381065792084146529616166873314319471374824959815586978014873719312571085074317575755080309128968825312769961211761229750224038575073045813620411102818945866326839603200]]

theorem Mu5Nmb_nyB3 : posChart (j3Z Mu5Nmb_nyN Mu5Nmb_nyT Mu5Nmb_nyD) [[0, 0, -1], [], [-1]] [[], [-2]] 0 0 Mu5Nmb_nyB3_p ⟨2000, 57, 4873⟩ ⟨20, 0, 57⟩ 14 10
    (.r (.c (.r (.r .leaf .leaf) .leaf) (.r (.c (.r .leaf .leaf) (.c (.r .leaf .leaf) (.r (.c .leaf .leaf) .leaf))) (.c .leaf (.c .leaf .leaf)))) (.c
    .leaf (.r .leaf .leaf))) = true := by decide +kernel

end Extensisq
