# Lines of /repo cited by the model

Written by tools/cited.py from the comments in lean/Verif/Model.  A line which is cited is modelled up to the simplifications
stated where it is cited; a line which is not cited is not modelled.

| file | lines | cited | modules | ranges |
|---|---|---|---|---|
| ioc/channel.cpp | 81 | 46 | RecordVal | 35-80 |
| ioc/credentials.cpp | 48 | 21 | IocCred | 26-46 |
| ioc/dblocker.h | 48 | 0 | GroupGet | named, without lines |
| ioc/dbmanylocker.h | 115 | 0 | GroupGet | named, without lines |
| ioc/field.cpp | 85 | 28 | GroupConf GroupType | 19-46 |
| ioc/field.h | 57 | 0 | GroupConf GroupGet GroupMon GroupPut | named, without lines |
| ioc/fieldconfig.h | 59 | 27 | GroupConf GroupJson GroupType | 25-34, 38-54 |
| ioc/fielddefinition.h | 41 | 9 | GroupConf | 29-37 |
| ioc/fieldname.cpp | 109 | 59 | FieldName | 29-67, 87-106 |
| ioc/fieldname.h | 111 | 6 | FieldName GroupType | 68-70, 107-109 |
| ioc/fieldnamecomponent.h | 73 | 25 | FieldName | 32-56 |
| ioc/fieldsubscriptionctx.h | 63 | 8 | GroupMon | 48-55 |
| ioc/group.cpp | 110 | 7 | GroupConf | 101-107 |
| ioc/group.h | 84 | 17 | GroupLoad | 60-76 |
| ioc/groupconfig.h | 37 | 9 | GroupJson | 23-31 |
| ioc/groupconfigprocessor.cpp | 1181 | 1102 | GroupConf GroupGet GroupJson GroupLoad GroupPut GroupType RecordVal | 30-607, 612-840, 856-1036, 1039-1140, 1165-1176 |
| ioc/groupconfigprocessor.h | 93 | 3 | GroupJson | 40-42 |
| ioc/groupprocessorcontext.cpp | 93 | 71 | GroupJson | 20-90 |
| ioc/groupprocessorcontext.h | 54 | 15 | GroupJson | 22-31, 37-41 |
| ioc/groupsource.cpp | 615 | 412 | GroupGet GroupMon GroupPut | 168-187, 206-406, 409-483, 497-612 |
| ioc/groupsourcehooks.cpp | 221 | 102 | GroupLoad IocLife | 42-46, 97-188, 190-194 |
| ioc/iochooks.cpp | 491 | 278 | IocLife Shell | 77-84, 86-97, 99-116, 118-129, 237-304, 308-384, 393-441, 453-486 |
| ioc/iocshcommand.h | 114 | 8 | GroupLoad | 94-101 |
| ioc/iocsource.cpp | 674 | 584 | GroupGet GroupMon GroupPut RecordGet RecordPut RecordVal | 40-66, 68-156, 158-310, 312-352, 362-455, 457-575, 583-617, 626-651 |
| ioc/iocsource.h | 80 | 8 | RecordGet | 36-43 |
| ioc/localfieldlog.cpp | 30 | 0 | GroupGet | named, without lines |
| ioc/pvalink.cpp | 336 | 213 | IocLife LinkWait Shell | 50-64, 66-80, 132-181, 184-316 |
| ioc/pvalink.h | 273 | 128 | LinkConf LinkPut LinkRead LinkScan LinkWait | 65-97, 146-222, 233-250 |
| ioc/pvalink_channel.cpp | 439 | 342 | LinkPut LinkRead LinkScan LinkWait | 40-52, 79-84, 106-124, 126-184, 186-217, 219-280, 282-310, 313-325, 328-436 |
| ioc/pvalink_jlif.cpp | 307 | 126 | LinkConf | 65-84, 86-118, 120-137, 139-193 |
| ioc/pvalink_link.cpp | 135 | 76 | LinkMeta LinkPut LinkRead LinkScan | 27-46, 66-80, 83-111, 121-132 |
| ioc/pvalink_lset.cpp | 704 | 571 | LinkMeta LinkPut LinkRead LinkScan | 44-147, 177-218, 220-235, 237-412, 414-430, 432-448, 450-474, 476-491, 493-510, 512-539, 547-563, 570-664 |
| ioc/qsrvpvt.h | 67 | 6 | IocLife | 40-45 |
| ioc/securityclient.cpp | 55 | 5 | GroupPut IocCred | 42-46 |
| ioc/securityclient.h | 77 | 34 | GroupPut RecordPut | 33-66 |
| ioc/singlesource.cpp | 470 | 286 | RecordGet RecordPut RecordVal | 47-168, 176-193, 195-256, 265-284, 306-369 |
| ioc/singlesourcehooks.cpp | 171 | 5 | IocLife | 156-160 |
| ioc/typeutils.cpp | 92 | 46 | RecordGet RecordVal | 28-62, 79-89 |
| ioc/typeutils.h | 37 | 0 | RecordVal | named, without lines |
| src/bitmask.cpp | 176 | 121 | BitMask | 31-42, 44-49, 51-88, 103-111, 116-147, 150-173 |
| src/bitmask.h | 265 | 112 | BitMask | 29-45, 48-66, 69-87, 91-98, 105, 114, 149-159, 170-184, 187, 200, 205-209, 221-227, 230-236 |
| src/client.cpp | 1362 | 1125 | Beacon Cache ClientAddr ClientChan ClientConnect ClientInfo ClientMon ClientOp Discover ForcedServer Handshake Ids ReplyRx Report Search Sock Wait | 44-51, 58-66, 96-227, 229-285, 287-311, 320-323, 343-395, 400-409, 439-450, 468-498, 507-516, 518-644, 648-991, 1011-1228, 1241-1275, 1283-1293, 1302-1340 |
| src/clientconn.cpp | 510 | 427 | Alive ClientAddr ClientChan ClientConnect ClientOp ForcedServer Handshake ReplyRx Report Search | 19-39, 41-45, 47-120, 132-160, 168-205, 207-327, 329-403, 405-441, 472-498 |
| src/clientdiscover.cpp | 142 | 98 | Beacon Discover | 18-115 |
| src/clientget.cpp | 684 | 538 | ClientConnect ClientOp Fetch Ids LinkPut PutBuild RpcArgs | 22-46, 48-73, 78-101, 107-132, 158-172, 174-187, 190-207, 209-236, 256-269, 271-344, 346-396, 400-557, 567-607, 658-681 |
| src/clientimpl.h | 375 | 127 | Beacon ClientChan ClientConnect ForcedServer ReplyRx Report Search Wait | 29-41, 84-108, 154-172, 174-226, 280-285, 290-300 |
| src/clientintrospect.cpp | 243 | 224 | ClientConnect ClientInfo | 20-243 |
| src/clientmon.cpp | 838 | 682 | CliStat ClientMon Ids LinkScan MonStat WorkQueue | 25-31, 34-76, 88, 91-101, 104-114, 116-143, 145-199, 201-209, 211-236, 275-284, 286-312, 319-379, 381-418, 420-450, 464-755, 767-798 |
| src/clientreq.cpp | 330 | 253 | ReqParse | 20-30, 40-80, 82-88, 108-120, 131-182, 184-221, 223-237, 239-278, 281-285, 293-323 |
| src/config.cpp | 664 | 461 | Alive Config ConfigTime | 32-85, 125-135, 149, 151-183, 185-197, 199-209, 211-227, 229-255, 257-269, 284-306, 309-341, 348-370, 372-392, 396-436, 473-482, 484-528, 550-598, 612-621, 623-648 |
| src/conn.cpp | 341 | 287 | Alive ClientChan ClientConnect ClientInfo ClientOp Conn FlowCtl Report Source | 29-46, 55-302, 307-327 |
| src/conn.h | 104 | 60 | Alive ClientChan Conn Report | 16-75 |
| src/data.cpp | 1305 | 1219 | ArrayConv ClientMon GroupJson Handshake LinkMeta PutBuild RealScalar RpcArgs Scalar ServerMon ServerPV TypeText Value ValueOps | 42-370, 372-1235, 1242-1267 |
| src/dataencode.cpp | 757 | 698 | Float Memory ServerMon TypeDesc Value | 30-210, 213-405, 407-412, 414-438, 450-690, 692-697, 699-727, 729-745 |
| src/datafmt.cpp | 325 | 290 | Print TypeText | 17-93, 95-116, 123-178, 182-304, 308-316, 320-322 |
| src/dataimpl.h | 209 | 109 | Float SMap TypeDesc Value ValueOps | 56-102, 104-165 |
| src/evhelper.cpp | 1144 | 804 | ClientConnect Discover EvLoop IfaceMap OutBuf ServAddr Sock Timer Wire | 116-349, 361-375, 381-455, 465-479, 539-576, 700-905, 907-934, 937-986, 990-1036, 1048-1143 |
| src/evhelper.h | 379 | 84 | IfaceMap Sock Timer | 229-254, 303-343, 357-373 |
| src/log.cpp | 407 | 341 | Log LogMsg | 34-38, 53-158, 161-390 |
| src/nt.cpp | 265 | 234 | NT | 13-23, 25-35, 37-115, 117-135, 137-143, 151-160, 162-180, 182-195, 197-249, 251-261 |
| src/osgroups.cpp | 194 | 138 | IocCred | 54-125, 127-192 |
| src/osiSockExt.h | 219 | 84 | ClientAddr Config IfaceMap Sock Udp | 40-103, 105-110, 140-153 |
| src/pvaproto.h | 702 | 535 | Handshake Memory Mshim OutBuf Wire | 33-146, 149-185, 187-205, 212-231, 239-249, 264-280, 282-305, 316-336, 338-362, 364-377, 379-383, 385-388, 390-405, 408-437, 439-453, 455-472, 474-520, 522-571, 580-585, 653-661, 663-679, 683-698 |
| src/pvrequest.cpp | 95 | 82 | PVRequest ServerMon | 13-72, 74-95 |
| src/pvxs/client.h | 1091 | 117 | Beacon Cache CliStat ClientMon ClientOp Config RpcArgs WorkQueue | 33-61, 161-173, 463-468, 574-578, 821-864, 956-975 |
| src/pvxs/data.h | 948 | 287 | ArrayConv LinkMeta LinkRead NT Print TypeCode TypeDef TypeDesc ValueOps | 29-38, 119-128, 140-228, 257-308, 369-456, 627-631, 636-647, 785-805 |
| src/pvxs/log.h | 148 | 7 | Log LogMsg | 30-36 |
| src/pvxs/netcommon.h | 82 | 26 | Report Wire | 43-68 |
| src/pvxs/nt.h | 208 | 63 | NT RpcArgs | 63-85, 165-204 |
| src/pvxs/server.h | 238 | 0 | Config | named, without lines |
| src/pvxs/sharedArray.h | 748 | 375 | ArrayConv SharedArray TypeCode | 27-43, 94-422, 646-661, 694-706 |
| src/pvxs/source.h | 290 | 42 | MonStat Source | 34-75 |
| src/pvxs/srvcommon.h | 138 | 21 | Handshake | 35-55 |
| src/pvxs/unittest.h | 327 | 91 | TestCase | 54-62, 78-81, 89-93, 142-152, 154-164, 186-208, 228-241, 262-275 |
| src/pvxs/util.h | 354 | 203 | Fifo Indent InstCount SigInt Timer WorkQueue | 84-111, 124-126, 129-171, 211-316, 318-340 |
| src/server.cpp | 851 | 515 | IocLife Life Report ServAddr ServerPV SigInt Sock Source | 80-150, 158-190, 208-234, 244-271, 382-513, 557-562, 571-596, 598-601, 604-612, 617-636, 638-641, 643-661, 666, 670-745, 754-812 |
| src/serverchan.cpp | 412 | 352 | Ids Report ServerConn SharedPV Source | 20-370, 396 |
| src/serverconn.cpp | 516 | 332 | Alive FlowCtl Handshake IocCred Life ServAddr ServerConn ServerMon | 33-38, 57-80, 83-85, 91-112, 143-158, 161-232, 242-275, 277-301, 346-436, 467-472, 481-513 |
| src/serverconn.h | 270 | 75 | Report ServerConn Source | 34-56, 79-115, 117-130, 243 |
| src/serverget.cpp | 523 | 347 | ServerConn ServerPV Timer | 37-121, 140-150, 183-222, 242-251, 275-316, 318-325, 353, 355-406, 408-505 |
| src/serverintrospect.cpp | 168 | 46 | ClientInfo ServerConn | 24-51, 101-110, 148-155 |
| src/servermon.cpp | 667 | 518 | FlowCtl MonStat Report ServerConn ServerMon SharedPV | 27-70, 74-107, 111-215, 246-296, 298-328, 362-406, 424-433, 456, 467-550, 552-664 |
| src/serversource.cpp | 99 | 58 | ServerPV | 37-94 |
| src/sharedarray.cpp | 499 | 400 | ArrayConv Print | 92-152, 158-496 |
| src/sharedpv.cpp | 621 | 395 | ServerPV SharedPV | 35-52, 79-93, 172-236, 240-262, 264-301, 337-372, 383-406, 408-435, 471-618 |
| src/type.cpp | 504 | 392 | ArrayConv TypeCode TypeDef TypeDesc TypeText | 44-166, 180-415, 418-450 |
| src/udp_collector.cpp | 662 | 478 | Life Sock Source Udp | 36-500, 646-658 |
| src/udp_collector.h | 120 | 71 | Beacon Udp | 31-43, 45-55, 57-85, 88-105 |
| src/unittest.cpp | 205 | 94 | TestCase | 93-95, 97-99, 101-111, 113-126, 128-144, 146-176, 180-194 |
| src/util.cpp | 885 | 655 | Config ConfigTime Indent InstCount Once RealParse Scalar SigInt Text TypeText Udp ValueOps Wire | 79-121, 123-205, 208-245, 256-548, 550-559, 572-581, 651-690, 729-773, 775-826, 842-882 |
| src/utilpvt.h | 315 | 89 | Alive ArrayConv ConfigTime Indent InstCount Once RealScalar | 53-58, 80-87, 94-110, 114-140, 255-262, 289-311 |
| tools/call.cpp | 160 | 71 | Tools | 80-113, 120-152, 154-157 |
| tools/get.cpp | 151 | 27 | Fetch | 104-105, 111-121, 133-146 |
| tools/info.cpp | 126 | 25 | Fetch TypeText | 83-84, 89-101, 112-121 |
| tools/list.cpp | 211 | 74 | Fetch | 117, 126-152, 154-198, 205 |
| tools/monitor.cpp | 185 | 66 | WorkQueue | 100-121, 131-133, 136-174, 176-177 |
| tools/mshim.cpp | 300 | 190 | Mshim | 57-75, 84-87, 95-174, 176-234, 250-277 |
| tools/put.cpp | 156 | 65 | Tools | 85-107, 115-156 |
| tools/pvxvct.cpp | 267 | 97 | Vct | 35-78, 105-111, 113-124, 173-176, 207-226, 228-237 |

Files of which nothing is modelled: ioc/channel.h, ioc/credentials.h, ioc/dbentry.h, ioc/dberrormessage.cpp, ioc/dberrormessage.h, ioc/dbeventcontextdeleter.h, ioc/demo.cpp, ioc/dummygroup.cpp, ioc/dummysingle.cpp, ioc/fielddefinition.cpp, ioc/fieldsubscriptionctx.cpp, ioc/groupdefinition.h, ioc/groupsource.h, ioc/groupsrcsubscriptionctx.h, ioc/iocshargument.h, ioc/iocshindex.h, ioc/localfieldlog.h, ioc/securitylogger.h, ioc/singlesource.h, ioc/singlesrcsubscriptionctx.cpp, ioc/singlesrcsubscriptionctx.h, ioc/subscriptionctx.h, ioc/yajlcallbackhandler.h, src/describe.cpp, src/pvrequest.h, src/pvxs/sharedpv.h, src/pvxs/version.h.
