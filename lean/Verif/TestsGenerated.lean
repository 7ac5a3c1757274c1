import Verif.Model.Regenerate

/-!
# Tests: the generated headers in /repo are what the modelled scripts print

The texts are copied from /repo/tuple-transmission, in three parts: what is before, what is in and what is after the
part that depends on the arity.
-/

namespace TT.Tests
open TT.Gen

/-- Copy of detail/operations/SendOverloads_Generated.h:55-433. -/
def sendOverloadsText : String := r#"#if FUSION_MAX_LIST_SIZE >= 0
				/// @brief Overload of transmission::send() taking a message collection and a message type as explicit
				/// template parameters, and taking a transmitter, plus values for 0 message fields directly
				/// instead of a boost::fusion sequence containing the field values.
				template<typename MessageCollectionType, typename MessageType, typename TransmitterDerived>
				inline typename enable_if< mpl::equal<mpl::int_<0>, MessageArity<MessageType> >, void>::type
				send(transmitters::TransmitterBase<TransmitterDerived> & tx) {

					::transmission::send<MessageCollectionType, MessageType>(
					    tx,
					    fusion::make_list()
					);
				}

				/// @brief Overload of transmission::send() taking a BoundMessageType as the only explicit
				/// template parameter, and taking a transmitter, plus values for 0 message fields directly
				/// instead of a boost::fusion sequence containing the field values.
				template<typename BoundMessage, typename TransmitterDerived>
				inline typename enable_if< mpl::equal<mpl::int_<0>, MessageArity<typename BoundMessage::message_type> >, void>::type
				send(transmitters::TransmitterBase<TransmitterDerived> & tx) {

					::transmission::send<typename BoundMessage::message_collection, typename BoundMessage::message_type>(
					    tx,
					    fusion::make_list()
					);
				}

#endif

#if FUSION_MAX_LIST_SIZE >= 1
				/// @brief Overload of transmission::send() taking a message collection and a message type as explicit
				/// template parameters, and taking a transmitter, plus values for 1 message fields directly
				/// instead of a boost::fusion sequence containing the field values.
				template<typename MessageCollectionType, typename MessageType, typename TransmitterDerived>
				inline typename enable_if< mpl::equal<mpl::int_<1>, MessageArity<MessageType> >, void>::type
				send(transmitters::TransmitterBase<TransmitterDerived> & tx,
				     typename mpl::at_c<typename MessageType::sequence_type, 0>::type a1) {

					::transmission::send<MessageCollectionType, MessageType>(
					    tx,
					    fusion::make_list(a1)
					);
				}

				/// @brief Overload of transmission::send() taking a BoundMessageType as the only explicit
				/// template parameter, and taking a transmitter, plus values for 1 message fields directly
				/// instead of a boost::fusion sequence containing the field values.
				template<typename BoundMessage, typename TransmitterDerived>
				inline typename enable_if< mpl::equal<mpl::int_<1>, MessageArity<typename BoundMessage::message_type> >, void>::type
				send(transmitters::TransmitterBase<TransmitterDerived> & tx,
				     typename mpl::at_c<typename BoundMessage::message_type::sequence_type, 0>::type a1) {

					::transmission::send<typename BoundMessage::message_collection, typename BoundMessage::message_type>(
					    tx,
					    fusion::make_list(a1)
					);
				}

#endif

#if FUSION_MAX_LIST_SIZE >= 2
				/// @brief Overload of transmission::send() taking a message collection and a message type as explicit
				/// template parameters, and taking a transmitter, plus values for 2 message fields directly
				/// instead of a boost::fusion sequence containing the field values.
				template<typename MessageCollectionType, typename MessageType, typename TransmitterDerived>
				inline typename enable_if< mpl::equal<mpl::int_<2>, MessageArity<MessageType> >, void>::type
				send(transmitters::TransmitterBase<TransmitterDerived> & tx,
				     typename mpl::at_c<typename MessageType::sequence_type, 0>::type a1,
				     typename mpl::at_c<typename MessageType::sequence_type, 1>::type a2) {

					::transmission::send<MessageCollectionType, MessageType>(
					    tx,
					    fusion::make_list(a1, a2)
					);
				}

				/// @brief Overload of transmission::send() taking a BoundMessageType as the only explicit
				/// template parameter, and taking a transmitter, plus values for 2 message fields directly
				/// instead of a boost::fusion sequence containing the field values.
				template<typename BoundMessage, typename TransmitterDerived>
				inline typename enable_if< mpl::equal<mpl::int_<2>, MessageArity<typename BoundMessage::message_type> >, void>::type
				send(transmitters::TransmitterBase<TransmitterDerived> & tx,
				     typename mpl::at_c<typename BoundMessage::message_type::sequence_type, 0>::type a1,
				     typename mpl::at_c<typename BoundMessage::message_type::sequence_type, 1>::type a2) {

					::transmission::send<typename BoundMessage::message_collection, typename BoundMessage::message_type>(
					    tx,
					    fusion::make_list(a1, a2)
					);
				}

#endif

#if FUSION_MAX_LIST_SIZE >= 3
				/// @brief Overload of transmission::send() taking a message collection and a message type as explicit
				/// template parameters, and taking a transmitter, plus values for 3 message fields directly
				/// instead of a boost::fusion sequence containing the field values.
				template<typename MessageCollectionType, typename MessageType, typename TransmitterDerived>
				inline typename enable_if< mpl::equal<mpl::int_<3>, MessageArity<MessageType> >, void>::type
				send(transmitters::TransmitterBase<TransmitterDerived> & tx,
				     typename mpl::at_c<typename MessageType::sequence_type, 0>::type a1,
				     typename mpl::at_c<typename MessageType::sequence_type, 1>::type a2,
				     typename mpl::at_c<typename MessageType::sequence_type, 2>::type a3) {

					::transmission::send<MessageCollectionType, MessageType>(
					    tx,
					    fusion::make_list(a1, a2, a3)
					);
				}

				/// @brief Overload of transmission::send() taking a BoundMessageType as the only explicit
				/// template parameter, and taking a transmitter, plus values for 3 message fields directly
				/// instead of a boost::fusion sequence containing the field values.
				template<typename BoundMessage, typename TransmitterDerived>
				inline typename enable_if< mpl::equal<mpl::int_<3>, MessageArity<typename BoundMessage::message_type> >, void>::type
				send(transmitters::TransmitterBase<TransmitterDerived> & tx,
				     typename mpl::at_c<typename BoundMessage::message_type::sequence_type, 0>::type a1,
				     typename mpl::at_c<typename BoundMessage::message_type::sequence_type, 1>::type a2,
				     typename mpl::at_c<typename BoundMessage::message_type::sequence_type, 2>::type a3) {

					::transmission::send<typename BoundMessage::message_collection, typename BoundMessage::message_type>(
					    tx,
					    fusion::make_list(a1, a2, a3)
					);
				}

#endif

#if FUSION_MAX_LIST_SIZE >= 4
				/// @brief Overload of transmission::send() taking a message collection and a message type as explicit
				/// template parameters, and taking a transmitter, plus values for 4 message fields directly
				/// instead of a boost::fusion sequence containing the field values.
				template<typename MessageCollectionType, typename MessageType, typename TransmitterDerived>
				inline typename enable_if< mpl::equal<mpl::int_<4>, MessageArity<MessageType> >, void>::type
				send(transmitters::TransmitterBase<TransmitterDerived> & tx,
				     typename mpl::at_c<typename MessageType::sequence_type, 0>::type a1,
				     typename mpl::at_c<typename MessageType::sequence_type, 1>::type a2,
				     typename mpl::at_c<typename MessageType::sequence_type, 2>::type a3,
				     typename mpl::at_c<typename MessageType::sequence_type, 3>::type a4) {

					::transmission::send<MessageCollectionType, MessageType>(
					    tx,
					    fusion::make_list(a1, a2, a3, a4)
					);
				}

				/// @brief Overload of transmission::send() taking a BoundMessageType as the only explicit
				/// template parameter, and taking a transmitter, plus values for 4 message fields directly
				/// instead of a boost::fusion sequence containing the field values.
				template<typename BoundMessage, typename TransmitterDerived>
				inline typename enable_if< mpl::equal<mpl::int_<4>, MessageArity<typename BoundMessage::message_type> >, void>::type
				send(transmitters::TransmitterBase<TransmitterDerived> & tx,
				     typename mpl::at_c<typename BoundMessage::message_type::sequence_type, 0>::type a1,
				     typename mpl::at_c<typename BoundMessage::message_type::sequence_type, 1>::type a2,
				     typename mpl::at_c<typename BoundMessage::message_type::sequence_type, 2>::type a3,
				     typename mpl::at_c<typename BoundMessage::message_type::sequence_type, 3>::type a4) {

					::transmission::send<typename BoundMessage::message_collection, typename BoundMessage::message_type>(
					    tx,
					    fusion::make_list(a1, a2, a3, a4)
					);
				}

#endif

#if FUSION_MAX_LIST_SIZE >= 5
				/// @brief Overload of transmission::send() taking a message collection and a message type as explicit
				/// template parameters, and taking a transmitter, plus values for 5 message fields directly
				/// instead of a boost::fusion sequence containing the field values.
				template<typename MessageCollectionType, typename MessageType, typename TransmitterDerived>
				inline typename enable_if< mpl::equal<mpl::int_<5>, MessageArity<MessageType> >, void>::type
				send(transmitters::TransmitterBase<TransmitterDerived> & tx,
				     typename mpl::at_c<typename MessageType::sequence_type, 0>::type a1,
				     typename mpl::at_c<typename MessageType::sequence_type, 1>::type a2,
				     typename mpl::at_c<typename MessageType::sequence_type, 2>::type a3,
				     typename mpl::at_c<typename MessageType::sequence_type, 3>::type a4,
				     typename mpl::at_c<typename MessageType::sequence_type, 4>::type a5) {

					::transmission::send<MessageCollectionType, MessageType>(
					    tx,
					    fusion::make_list(a1, a2, a3, a4, a5)
					);
				}

				/// @brief Overload of transmission::send() taking a BoundMessageType as the only explicit
				/// template parameter, and taking a transmitter, plus values for 5 message fields directly
				/// instead of a boost::fusion sequence containing the field values.
				template<typename BoundMessage, typename TransmitterDerived>
				inline typename enable_if< mpl::equal<mpl::int_<5>, MessageArity<typename BoundMessage::message_type> >, void>::type
				send(transmitters::TransmitterBase<TransmitterDerived> & tx,
				     typename mpl::at_c<typename BoundMessage::message_type::sequence_type, 0>::type a1,
				     typename mpl::at_c<typename BoundMessage::message_type::sequence_type, 1>::type a2,
				     typename mpl::at_c<typename BoundMessage::message_type::sequence_type, 2>::type a3,
				     typename mpl::at_c<typename BoundMessage::message_type::sequence_type, 3>::type a4,
				     typename mpl::at_c<typename BoundMessage::message_type::sequence_type, 4>::type a5) {

					::transmission::send<typename BoundMessage::message_collection, typename BoundMessage::message_type>(
					    tx,
					    fusion::make_list(a1, a2, a3, a4, a5)
					);
				}

#endif

#if FUSION_MAX_LIST_SIZE >= 6
				/// @brief Overload of transmission::send() taking a message collection and a message type as explicit
				/// template parameters, and taking a transmitter, plus values for 6 message fields directly
				/// instead of a boost::fusion sequence containing the field values.
				template<typename MessageCollectionType, typename MessageType, typename TransmitterDerived>
				inline typename enable_if< mpl::equal<mpl::int_<6>, MessageArity<MessageType> >, void>::type
				send(transmitters::TransmitterBase<TransmitterDerived> & tx,
				     typename mpl::at_c<typename MessageType::sequence_type, 0>::type a1,
				     typename mpl::at_c<typename MessageType::sequence_type, 1>::type a2,
				     typename mpl::at_c<typename MessageType::sequence_type, 2>::type a3,
				     typename mpl::at_c<typename MessageType::sequence_type, 3>::type a4,
				     typename mpl::at_c<typename MessageType::sequence_type, 4>::type a5,
				     typename mpl::at_c<typename MessageType::sequence_type, 5>::type a6) {

					::transmission::send<MessageCollectionType, MessageType>(
					    tx,
					    fusion::make_list(a1, a2, a3, a4, a5, a6)
					);
				}

				/// @brief Overload of transmission::send() taking a BoundMessageType as the only explicit
				/// template parameter, and taking a transmitter, plus values for 6 message fields directly
				/// instead of a boost::fusion sequence containing the field values.
				template<typename BoundMessage, typename TransmitterDerived>
				inline typename enable_if< mpl::equal<mpl::int_<6>, MessageArity<typename BoundMessage::message_type> >, void>::type
				send(transmitters::TransmitterBase<TransmitterDerived> & tx,
				     typename mpl::at_c<typename BoundMessage::message_type::sequence_type, 0>::type a1,
				     typename mpl::at_c<typename BoundMessage::message_type::sequence_type, 1>::type a2,
				     typename mpl::at_c<typename BoundMessage::message_type::sequence_type, 2>::type a3,
				     typename mpl::at_c<typename BoundMessage::message_type::sequence_type, 3>::type a4,
				     typename mpl::at_c<typename BoundMessage::message_type::sequence_type, 4>::type a5,
				     typename mpl::at_c<typename BoundMessage::message_type::sequence_type, 5>::type a6) {

					::transmission::send<typename BoundMessage::message_collection, typename BoundMessage::message_type>(
					    tx,
					    fusion::make_list(a1, a2, a3, a4, a5, a6)
					);
				}

#endif

#if FUSION_MAX_LIST_SIZE >= 7
				/// @brief Overload of transmission::send() taking a message collection and a message type as explicit
				/// template parameters, and taking a transmitter, plus values for 7 message fields directly
				/// instead of a boost::fusion sequence containing the field values.
				template<typename MessageCollectionType, typename MessageType, typename TransmitterDerived>
				inline typename enable_if< mpl::equal<mpl::int_<7>, MessageArity<MessageType> >, void>::type
				send(transmitters::TransmitterBase<TransmitterDerived> & tx,
				     typename mpl::at_c<typename MessageType::sequence_type, 0>::type a1,
				     typename mpl::at_c<typename MessageType::sequence_type, 1>::type a2,
				     typename mpl::at_c<typename MessageType::sequence_type, 2>::type a3,
				     typename mpl::at_c<typename MessageType::sequence_type, 3>::type a4,
				     typename mpl::at_c<typename MessageType::sequence_type, 4>::type a5,
				     typename mpl::at_c<typename MessageType::sequence_type, 5>::type a6,
				     typename mpl::at_c<typename MessageType::sequence_type, 6>::type a7) {

					::transmission::send<MessageCollectionType, MessageType>(
					    tx,
					    fusion::make_list(a1, a2, a3, a4, a5, a6, a7)
					);
				}

				/// @brief Overload of transmission::send() taking a BoundMessageType as the only explicit
				/// template parameter, and taking a transmitter, plus values for 7 message fields directly
				/// instead of a boost::fusion sequence containing the field values.
				template<typename BoundMessage, typename TransmitterDerived>
				inline typename enable_if< mpl::equal<mpl::int_<7>, MessageArity<typename BoundMessage::message_type> >, void>::type
				send(transmitters::TransmitterBase<TransmitterDerived> & tx,
				     typename mpl::at_c<typename BoundMessage::message_type::sequence_type, 0>::type a1,
				     typename mpl::at_c<typename BoundMessage::message_type::sequence_type, 1>::type a2,
				     typename mpl::at_c<typename BoundMessage::message_type::sequence_type, 2>::type a3,
				     typename mpl::at_c<typename BoundMessage::message_type::sequence_type, 3>::type a4,
				     typename mpl::at_c<typename BoundMessage::message_type::sequence_type, 4>::type a5,
				     typename mpl::at_c<typename BoundMessage::message_type::sequence_type, 5>::type a6,
				     typename mpl::at_c<typename BoundMessage::message_type::sequence_type, 6>::type a7) {

					::transmission::send<typename BoundMessage::message_collection, typename BoundMessage::message_type>(
					    tx,
					    fusion::make_list(a1, a2, a3, a4, a5, a6, a7)
					);
				}

#endif

#if FUSION_MAX_LIST_SIZE >= 8
				/// @brief Overload of transmission::send() taking a message collection and a message type as explicit
				/// template parameters, and taking a transmitter, plus values for 8 message fields directly
				/// instead of a boost::fusion sequence containing the field values.
				template<typename MessageCollectionType, typename MessageType, typename TransmitterDerived>
				inline typename enable_if< mpl::equal<mpl::int_<8>, MessageArity<MessageType> >, void>::type
				send(transmitters::TransmitterBase<TransmitterDerived> & tx,
				     typename mpl::at_c<typename MessageType::sequence_type, 0>::type a1,
				     typename mpl::at_c<typename MessageType::sequence_type, 1>::type a2,
				     typename mpl::at_c<typename MessageType::sequence_type, 2>::type a3,
				     typename mpl::at_c<typename MessageType::sequence_type, 3>::type a4,
				     typename mpl::at_c<typename MessageType::sequence_type, 4>::type a5,
				     typename mpl::at_c<typename MessageType::sequence_type, 5>::type a6,
				     typename mpl::at_c<typename MessageType::sequence_type, 6>::type a7,
				     typename mpl::at_c<typename MessageType::sequence_type, 7>::type a8) {

					::transmission::send<MessageCollectionType, MessageType>(
					    tx,
					    fusion::make_list(a1, a2, a3, a4, a5, a6, a7, a8)
					);
				}

				/// @brief Overload of transmission::send() taking a BoundMessageType as the only explicit
				/// template parameter, and taking a transmitter, plus values for 8 message fields directly
				/// instead of a boost::fusion sequence containing the field values.
				template<typename BoundMessage, typename TransmitterDerived>
				inline typename enable_if< mpl::equal<mpl::int_<8>, MessageArity<typename BoundMessage::message_type> >, void>::type
				send(transmitters::TransmitterBase<TransmitterDerived> & tx,
				     typename mpl::at_c<typename BoundMessage::message_type::sequence_type, 0>::type a1,
				     typename mpl::at_c<typename BoundMessage::message_type::sequence_type, 1>::type a2,
				     typename mpl::at_c<typename BoundMessage::message_type::sequence_type, 2>::type a3,
				     typename mpl::at_c<typename BoundMessage::message_type::sequence_type, 3>::type a4,
				     typename mpl::at_c<typename BoundMessage::message_type::sequence_type, 4>::type a5,
				     typename mpl::at_c<typename BoundMessage::message_type::sequence_type, 5>::type a6,
				     typename mpl::at_c<typename BoundMessage::message_type::sequence_type, 6>::type a7,
				     typename mpl::at_c<typename BoundMessage::message_type::sequence_type, 7>::type a8) {

					::transmission::send<typename BoundMessage::message_collection, typename BoundMessage::message_type>(
					    tx,
					    fusion::make_list(a1, a2, a3, a4, a5, a6, a7, a8)
					);
				}

#endif

#if FUSION_MAX_LIST_SIZE >= 9
				/// @brief Overload of transmission::send() taking a message collection and a message type as explicit
				/// template parameters, and taking a transmitter, plus values for 9 message fields directly
				/// instead of a boost::fusion sequence containing the field values.
				template<typename MessageCollectionType, typename MessageType, typename TransmitterDerived>
				inline typename enable_if< mpl::equal<mpl::int_<9>, MessageArity<MessageType> >, void>::type
				send(transmitters::TransmitterBase<TransmitterDerived> & tx,
				     typename mpl::at_c<typename MessageType::sequence_type, 0>::type a1,
				     typename mpl::at_c<typename MessageType::sequence_type, 1>::type a2,
				     typename mpl::at_c<typename MessageType::sequence_type, 2>::type a3,
				     typename mpl::at_c<typename MessageType::sequence_type, 3>::type a4,
				     typename mpl::at_c<typename MessageType::sequence_type, 4>::type a5,
				     typename mpl::at_c<typename MessageType::sequence_type, 5>::type a6,
				     typename mpl::at_c<typename MessageType::sequence_type, 6>::type a7,
				     typename mpl::at_c<typename MessageType::sequence_type, 7>::type a8,
				     typename mpl::at_c<typename MessageType::sequence_type, 8>::type a9) {

					::transmission::send<MessageCollectionType, MessageType>(
					    tx,
					    fusion::make_list(a1, a2, a3, a4, a5, a6, a7, a8, a9)
					);
				}

				/// @brief Overload of transmission::send() taking a BoundMessageType as the only explicit
				/// template parameter, and taking a transmitter, plus values for 9 message fields directly
				/// instead of a boost::fusion sequence containing the field values.
				template<typename BoundMessage, typename TransmitterDerived>
				inline typename enable_if< mpl::equal<mpl::int_<9>, MessageArity<typename BoundMessage::message_type> >, void>::type
				send(transmitters::TransmitterBase<TransmitterDerived> & tx,
				     typename mpl::at_c<typename BoundMessage::message_type::sequence_type, 0>::type a1,
				     typename mpl::at_c<typename BoundMessage::message_type::sequence_type, 1>::type a2,
				     typename mpl::at_c<typename BoundMessage::message_type::sequence_type, 2>::type a3,
				     typename mpl::at_c<typename BoundMessage::message_type::sequence_type, 3>::type a4,
				     typename mpl::at_c<typename BoundMessage::message_type::sequence_type, 4>::type a5,
				     typename mpl::at_c<typename BoundMessage::message_type::sequence_type, 5>::type a6,
				     typename mpl::at_c<typename BoundMessage::message_type::sequence_type, 6>::type a7,
				     typename mpl::at_c<typename BoundMessage::message_type::sequence_type, 7>::type a8,
				     typename mpl::at_c<typename BoundMessage::message_type::sequence_type, 8>::type a9) {

					::transmission::send<typename BoundMessage::message_collection, typename BoundMessage::message_type>(
					    tx,
					    fusion::make_list(a1, a2, a3, a4, a5, a6, a7, a8, a9)
					);
				}

#endif
"#

/-- Copy of PartialHandlerBase.h:52-81. -/
def partialHandlerText : String := r#"			template<typename M>
			void operator()(M const &, typename M::message_type_tag * = NULL) {}

			template<typename M, typename T1>
			void operator()(M const &, T1, typename M::message_type_tag * = NULL, typename boost::disable_if<boost::fusion::traits::is_sequence<T1> >::type * = NULL) {}

			template<typename M, typename T1, typename T2>
			void operator()(M const &, T1, T2, typename M::message_type_tag * = NULL) {}

			template<typename M, typename T1, typename T2, typename T3>
			void operator()(M const &, T1, T2, T3, typename M::message_type_tag * = NULL) {}

			template<typename M, typename T1, typename T2, typename T3, typename T4>
			void operator()(M const &, T1, T2, T3, T4, typename M::message_type_tag * = NULL) {}

			template<typename M, typename T1, typename T2, typename T3, typename T4, typename T5>
			void operator()(M const &, T1, T2, T3, T4, T5, typename M::message_type_tag * = NULL) {}

			template<typename M, typename T1, typename T2, typename T3, typename T4, typename T5, typename T6>
			void operator()(M const &, T1, T2, T3, T4, T5, T6, typename M::message_type_tag * = NULL) {}

			template<typename M, typename T1, typename T2, typename T3, typename T4, typename T5, typename T6, typename T7>
			void operator()(M const &, T1, T2, T3, T4, T5, T6, T7, typename M::message_type_tag * = NULL) {}

			template<typename M, typename T1, typename T2, typename T3, typename T4, typename T5, typename T6, typename T7, typename T8>
			void operator()(M const &, T1, T2, T3, T4, T5, T6, T7, T8, typename M::message_type_tag * = NULL) {}

			template<typename M, typename T1, typename T2, typename T3, typename T4, typename T5, typename T6, typename T7, typename T8, typename T9>
			void operator()(M const &, T1, T2, T3, T4, T5, T6, T7, T8, T9, typename M::message_type_tag * = NULL) {}

"#

/-- Copy of detail/constants/ArityConfig.h:45-59. -/
def arityConfigText : String := r#"#ifndef FUSION_MAX_LIST_SIZE
#define FUSION_MAX_LIST_SIZE 9
#endif
#ifndef BOOST_FUSION_INVOKE_PROCEDURE_MAX_ARITY
#define BOOST_FUSION_INVOKE_PROCEDURE_MAX_ARITY 10
#endif
namespace transmission {
	namespace detail {
		namespace constants {
			enum {
				ReceiveMaxArity = 9
			};
		} // end of namespace constants
	} // end of namespace detail
} // end of namespace transmission
"#

#guard body SendOverloads.generate 0 9 == sendOverloadsText.toList
#guard (body PartialHandler.generate 0 9) ++ ['\n'] == partialHandlerText.toList
#guard cat (ArityConfig.generate 9 9) ['\n'] ++ ['\n'] == arityConfigText.toList

/-- Copy of detail/operations/SendOverloads_Generated.h:1-54. -/
def sendOverloadsHead : String := r#"/** @file
	@brief Header AUTO-GENERATED by variadicGenerate.lua on input SendOverloads.gen.lua to avoid doing crazy preprocessor things

	DO NOT EDIT THIS FILE DIRECTLY - instead, edit the script that generates it.

        @date 2012

        @author
        Ryan Pavlik
        <rpavlik@iastate.edu> and <abiryan@ryand.net>
        http://academic.cleardefinition.com/
        Iowa State University Virtual Reality Applications Center
        Human-Computer Interaction Graduate Program
*/

//          Copyright Iowa State University 2012.
// Distributed under the Boost Software License, Version 1.0.
//    (See accompanying file LICENSE_1_0.txt or copy at
//          http://www.boost.org/LICENSE_1_0.txt)

#pragma once
#ifndef INCLUDED_SendOverloads_Generated_h_GUID_ceb4f589_526e_49d7_84c5_0b38f6d1fc42
#define INCLUDED_SendOverloads_Generated_h_GUID_ceb4f589_526e_49d7_84c5_0b38f6d1fc42

// Internal Includes
#include "../constants/ArityConfig.h"
#include "MessageArity.h"
#include "../bases/TransmitterBase_fwd.h"

// Library/third-party includes
#include <boost/fusion/include/make_list.hpp>
#include <boost/mpl/size.hpp>
#include <boost/mpl/int.hpp>
#include <boost/mpl/at.hpp>
#include <boost/mpl/equal.hpp>
#include <boost/utility/enable_if.hpp>

// Standard includes
// - none

namespace transmission {
	// Forward-declare the main send function that we'll invoke after making a fusion sequence
	template<typename Collection, typename Message, typename TransmitterDerived, typename MessageContentsType>
	void send(transmitters::TransmitterBase<TransmitterDerived> & tx, MessageContentsType const & contents);

	namespace detail {
		namespace operations {
			namespace generated {
				namespace mpl = boost::mpl;
				namespace fusion = boost::fusion;
				using boost::enable_if;
				typedef mpl::int_<9> SendOverloadMaxArity;


"#

/-- Copy of detail/operations/SendOverloads_Generated.h:434-442. -/
def sendOverloadsTail : String := r#"
			} // end of namespace generated
		} // end of namespace operations
	} // end of namespace detail

	using detail::operations::generated::send;
} // end of namespace transmission
#endif // INCLUDED_SendOverloads_Generated_h_GUID_ceb4f589_526e_49d7_84c5_0b38f6d1fc42

"#

/-- Copy of PartialHandlerBase.h:1-51. -/
def partialHandlerHead : String := r#"/** @file
	@brief Header AUTO-GENERATED by variadicGenerate.lua on input PartialHandlerBase.gen.lua to avoid doing crazy preprocessor things

	DO NOT EDIT THIS FILE DIRECTLY - instead, edit the script that generates it.

	@date 2012

	@author
	Ryan Pavlik
	<rpavlik@iastate.edu> and <abiryan@ryand.net>
	http://academic.cleardefinition.com/
	Iowa State University Virtual Reality Applications Center
	Human-Computer Interaction Graduate Program
*/

//          Copyright Iowa State University 2012.
// Distributed under the Boost Software License, Version 1.0.
//    (See accompanying file LICENSE_1_0.txt or copy at
//          http://www.boost.org/LICENSE_1_0.txt)

#pragma once
#ifndef INCLUDED_PartialHandlerBase_h_GUID_314b3576_c339_42e9_ac75_cccb9b7f0bfe
#define INCLUDED_PartialHandlerBase_h_GUID_314b3576_c339_42e9_ac75_cccb9b7f0bfe

// Internal Includes
#include "Receiver.h"
#include "ParameterHandlerBase.h"

// Library/third-party includes
#include <boost/utility/enable_if.hpp>
#include <boost/fusion/include/is_sequence.hpp>

// Standard includes
// - none

namespace transmission {

	/** @brief Base class for use in creating functors for transmission::Receiver
		that provides default handlers for all message types.

		If you derive your functor from this class, you don't have to provide all
		the handlers, and you must include a line like the following in the
		functor to explicitly use the provided defaults:

		using transmission::PartialHandlerBase<YourClass>::operator();
	*/
	template<typename Derived>
	class PartialHandlerBase : public ParameterHandlerBase<Derived> {
		public:
			using ParameterHandlerBase<Derived>::operator();

"#

/-- Copy of PartialHandlerBase.h:82-86. -/
def partialHandlerTail : String := r#"	};
} // end of namespace transmission

#endif // INCLUDED_PartialHandlerBase_h_GUID_314b3576_c339_42e9_ac75_cccb9b7f0bfe

"#

/-- Copy of detail/constants/ArityConfig.h:1-44. -/
def arityConfigHead : String := r#"/** @file
	@brief Config header with Fusion limit defines - Must be included before any
	Fusion header!

	Header AUTO-GENERATED by variadicGenerate.lua on input ArityConfig.gen.lua to ensure consistency

	DO NOT EDIT THIS FILE DIRECTLY - instead, edit the script that generates it.
	In this case, this file mostly exists to get constants used when generating
	_any_ file into one file to configure support libraries, so the generation
	script shared by all generated files contains the typically-interesting
	values.

	Note that only by editing and re-running the generating script can you
	change these limits, since some files are pre-generated instead of
	using BOOST_PP_...

	@author
	Ryan Pavlik
	<rpavlik@iastate.edu> and <abiryan@ryand.net>
	http://academic.cleardefinition.com/
	Iowa State University Virtual Reality Applications Center
	Human-Computer Interaction Graduate Program
*/

//          Copyright Iowa State University 2012.
// Distributed under the Boost Software License, Version 1.0.
//    (See accompanying file LICENSE_1_0.txt or copy at
//          http://www.boost.org/LICENSE_1_0.txt)

#pragma once
#ifndef INCLUDED_FusionConfig_h_GUID_e185dc4f_3d12_4f22_ae37_ee131be6d12a
#define INCLUDED_FusionConfig_h_GUID_e185dc4f_3d12_4f22_ae37_ee131be6d12a

// Internal Includes
// - none

// Library/third-party includes
// - none

// Standard includes
// - none



"#

/-- Copy of detail/constants/ArityConfig.h:60-62. -/
def arityConfigTail : String := r#"
#endif // INCLUDED_FusionConfig_h_GUID_e185dc4f_3d12_4f22_ae37_ee131be6d12a

"#

#guard runGenerator settings sendOverloadsFile (sourceName "SendOverloads.gen.lua".toList) ==
  some (sendOverloadsHead ++ sendOverloadsText ++ sendOverloadsTail).toList
#guard runGenerator settings partialHandlerFile (sourceName "PartialHandlerBase.gen.lua".toList) ==
  some (partialHandlerHead ++ partialHandlerText ++ partialHandlerTail).toList
#guard runGenerator settings arityConfigFile (sourceName "ArityConfig.gen.lua".toList) ==
  some (arityConfigHead ++ arityConfigText ++ arityConfigTail).toList
#guard (generateAll settings (fun _ => true) dataFiles fun _ => none).2
#guard (generateAll settings (fun _ => true) dataFiles fun _ => none).1 "PartialHandlerBase.h".toList ==
  some (partialHandlerHead ++ partialHandlerText ++ partialHandlerTail).toList

end TT.Tests
